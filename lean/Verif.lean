import Verif.Props.Index
import Verif.Props.Octree
import Verif.Props.Gridmap
import Verif.Props.Expand
import Verif.Props.Copy
import Verif.Props.Occupancy
import Verif.Props.Sampling
import Verif.Props.OccMap
import Verif.Props.OccVisible
import Verif.Spec.Visibility
import Verif.Props.Visibility
import Verif.Props.Serial
import Verif.Props.SerialMore
import Verif.Props.Convert
import Verif.Props.Mono
import Verif.Props.Raster
import Verif.Props.RasterMore
import Verif.Props.Angles
import Verif.Props.Quaternions
import Verif.Props.Matching
import Verif.Props.MatchingMore
import Verif.Props.Container
import Verif.Props.Later
import Verif.Props.LaterStatic
import Verif.Props.Export
import Verif.Props.Assumptions
import Verif.Props.Accessors
import Verif.Props.Problem
import Verif.Props.Concurrent
import Verif.Props.Rounding
import Verif.Props.RasterRounded
import Verif.Props.Loader
import Verif.Props.ExportRgb
import Verif.Props.Legacy
import Verif.Props.SameFiles
import Verif.Props.Continuity
import Verif.Props.Ieee
import Verif.Props.SamplingRounded
import Verif.Props.Boundaries
import Verif.Props.FloatModel
import Verif.Props.Lifetime
import Verif.Props.VisibleScan
import Verif.Props.OccHistory
import Verif.Props.Interpolation
import Verif.Props.Move
import Verif.Props.MonoAccess
import Verif.Props.OccRounded
import Verif.Props.ByteSize
import Verif.Props.AnyMap
import Verif.Props.AnySampling
import Verif.Props.OccRange
import Verif.Props.AnyCopy
import Verif.Props.AnyAccess
import Verif.Props.Field
import Verif.Props.Frame
import Verif.Props.RoundingOcc
import Verif.Props.Entry
import Verif.Props.ScanOrder
import Verif.Props.Format
import Verif.Props.OccSpecial
import Verif.Props.SerialCrash
import Verif.Props.SameExports
import Verif.Props.Local
import Verif.Props.Session
import Verif.Props.MatchFrame
import Verif.Props.MatchFrameQuat
import Verif.Props.Jet
import Verif.Props.Jump
import Verif.Proofs.MapData
import Verif.Props.Units
import Verif.Spec.Kinds
import Verif.Props.MapKinds
import Verif.Spec.Axes
import Verif.Props.Axes
import Verif.Model.MarkerShape
import Verif.Spec.MarkerShape
import Verif.Props.MarkerShape
import Verif.Spec.Evidence
import Verif.Props.Evidence
import Verif.Spec.Resolutions
import Verif.Props.Resolutions
import Verif.Spec.Mirror
import Verif.Props.Mirror
import Verif.Model.MarkerColor
import Verif.Props.MarkerColor
import Verif.Spec.Windows
import Verif.Props.Windows
import Verif.Props.AxesSamples
import Verif.Spec.Support
import Verif.Props.Support
import Verif.Props.ScanAllocates
import Verif.Model.SamplingFormat
import Verif.Spec.SamplingFormat
import Verif.Proofs.SamplingFormat
import Verif.Props.SamplingFormat
import Verif.Props.InterpolationFormat
import Verif.Props.SamplingFormatCases
import Verif.Model.MonoFormat
import Verif.Spec.MonoFormat
import Verif.Props.MonoFormat
import Verif.Spec.Displaced
import Verif.Props.Displaced
import Verif.Props.DisplacedVisible
import Verif.Props.AxesVisible
import Verif.Spec.FreeSpace
import Verif.Props.FreeSpace
import Verif.Spec.VisibleLess
import Verif.Props.VisibleLess
import Verif.Model.OccFormat
import Verif.Spec.OccFormat
import Verif.Proofs.OccFormat
import Verif.Props.OccFormat
import Verif.Model.RasterFormat
import Verif.Proofs.RasterFormat
import Verif.Props.RasterFormat
import Verif.Proofs.OccSaturation
import Verif.Props.OccSaturation
import Verif.Model.MonoRasterFormat
import Verif.Spec.MonoRasterFormat
import Verif.Proofs.MonoRasterFormat
import Verif.Props.MonoRasterFormat
import Verif.Props.PoseRounded
import Verif.Props.PriorRounded
import Verif.Props.PoseRoundedRPY
import Verif.Props.Trust
import Verif.Props.CostGradient
import Verif.Props.Optimum
import Verif.Props.CostRounded
import Verif.Props.CostRoundedMore
import Verif.Props.ScanDensity
import Verif.Props.Outliers
import Verif.Props.NoInformation
import Verif.Props.ScoreMeaning
import Verif.Props.MatchLocal
import Verif.Props.MapError
import Verif.Props.WeightTuning
import Verif.Props.ScanParts
