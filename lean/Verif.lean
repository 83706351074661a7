import Verif.Props.Reconstructor
import Verif.Props.Loader
import Verif.Props.Checkpoint
import Verif.Props.NestedDict
import Verif.Props.Cxi
import Verif.Props.CxiMeta
import Verif.Props.DatasetCxi
import Verif.Props.CxiFile
import Verif.Props.PtychoDataset
import Verif.Props.PadDownsample
import Verif.Props.Losses
import Verif.Props.Measurements
import Verif.Props.Propagators
import Verif.Props.ImageProc
import Verif.Props.Centering
import Verif.Props.Upsample
import Verif.Props.FindShift
import Verif.Props.Interactions
import Verif.Props.Geometry
import Verif.Props.Rpi
import Verif.Model.Initializers
import Verif.Props.ModeOrders
import Verif.Props.Probes
import Verif.Props.SpectralInit
import Verif.Model.Analysis
import Verif.Props.Standardize
import Verif.Lemmas.LinAlg
import Verif.Props.Modes
import Verif.Props.Fidelity
import Verif.Props.Frc
import Verif.Props.DmRank
import Verif.Props.Entropy
import Verif.Props.Inspect
import Verif.Model.FancyPtycho
import Verif.Model.FancyResults
import Verif.Lemmas.FancyLinear
import Verif.Props.TidyProbes
import Verif.Props.FancyForward
import Verif.Props.FancyFromDataset
import Verif.Props.MultisliceFromDataset
import Verif.Props.FancyResults
import Verif.Props.Scheduler
import Verif.Props.FancyOptions
import Verif.Props.SimDataset
import Verif.Props.Gauge
import Verif.Props.Illumination
import Verif.Props.Stability
import Verif.Props.StabilityOthers
import Verif.Props.StdSets
import Verif.Props.PlotLists
import Verif.Props.Synthesis
import Verif.Props.Prtf
import Verif.Props.GenFrc
import Verif.Props.Spectral
import Verif.Props.CxiExtras
import Verif.Props.RpiForward
import Verif.Props.RpiSetup
import Verif.Props.Multislice
import Verif.Props.PerExposure
import Verif.Props.PlaneWave
import Verif.Props.MultisliceSetup
import Verif.Props.ResultsIO
import Verif.Props.HighNA
import Verif.Props.Batch
import Verif.Props.Bragg
import Verif.Props.BraggFromDataset
import Verif.Props.BraggSetup
import Verif.Props.Simple
import Verif.Props.Browse
import Verif.Props.FinitePixels
import Verif.Props.CenterProbes
import Verif.Props.Multislice2D
import Verif.Props.ObjModes
import Verif.Props.ModelLoss
import Verif.Props.Plotting
import Verif.Props.StemProbe
import Verif.Props.Devices
import Verif.Props.ModelBase
import Verif.Props.SpectralGuess
import Verif.Props.FancyGradient
import Verif.Props.ScanSeam
import Verif.Props.Autograd
import Verif.Props.Training
import Verif.Props.AntiAlias
import Verif.Props.LineSearch
import Verif.Model.Colormap
import Verif.Props.Colormap
import Verif.Props.Preprocess
import Verif.Props.Locality
import Verif.Props.StabilityRpi
import Verif.Props.BatchOthers
import Verif.Props.Training2D
import Verif.Props.LossArrays
import Verif.Props.Descent
import Verif.Props.FancySteps
import Verif.Props.Units
import Verif.Props.Azimuth
import Verif.Props.FrameOthers
import Verif.Props.Order
import Verif.Props.OrderOthers
import Verif.Props.Origin
import Verif.Props.Padding
import Verif.Model.ModelSteps
import Verif.Props.ModelSteps
import Verif.Props.StepsFrame
import Verif.Props.SimpleFrame
import Verif.Props.ModeOrder
import Verif.Props.AxisSwap
import Verif.Props.AxisSteps
import Verif.Props.AxisOthers
import Verif.Props.AxisData
