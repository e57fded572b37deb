import Verif.Np
import Verif.Model.Absorption
import Verif.Model.Angles
import Verif.Model.Area
import Verif.Model.Assemble
import Verif.Model.Concurrent
import Verif.Model.Diffraction
import Verif.Model.Files
import Verif.Model.Fresnel
import Verif.Model.Hyperhemisphere
import Verif.Model.IntProfile
import Verif.Model.Interface
import Verif.Model.Intersect
import Verif.Model.Launch
import Verif.Model.LayerFunction
import Verif.Model.MatMul
import Verif.Model.MatrixProfile
import Verif.Model.MultiBulk
import Verif.Model.MultiBulkProf
import Verif.Model.OnlyIncidence
import Verif.Model.Options
import Verif.Model.OrderDirections
import Verif.Model.Parallel
import Verif.Model.PolChoice
import Verif.Model.RCWA
import Verif.Model.RTBuild
import Verif.Model.RTCalculate
import Verif.Model.RTFunction
import Verif.Model.RTMatrix
import Verif.Model.RTProfiles
import Verif.Model.RTStart
import Verif.Model.RTTables
import Verif.Model.RayStack
import Verif.Model.RcwaFields
import Verif.Model.RcwaMaps
import Verif.Model.RcwaOptions
import Verif.Model.RcwaProfiles
import Verif.Model.RcwaStructure
import Verif.Model.RcwaWavelengths
import Verif.Model.Roughness
import Verif.Model.Summary
import Verif.Model.Surface
import Verif.Model.TMM
import Verif.Model.TableLookup
import Verif.Model.TmmDepths
import Verif.Model.TraceStack
import Verif.Model.TraceSurface
import Verif.Model.Vec
import Verif.Spec.Agree
import Verif.Spec.Angles
import Verif.Spec.BeerLambert
import Verif.Spec.Branching
import Verif.Spec.Cell
import Verif.Spec.Compare
import Verif.Spec.Cone
import Verif.Spec.Diffuse
import Verif.Spec.DiffuseLimit
import Verif.Spec.Energy
import Verif.Spec.Files
import Verif.Spec.FlatLayers
import Verif.Spec.FlatTrace
import Verif.Spec.FrontTexture
import Verif.Spec.Gentle
import Verif.Spec.Geometry
import Verif.Spec.LayerShares
import Verif.Spec.Matched
import Verif.Spec.Matrix
import Verif.Spec.Mirror
import Verif.Spec.Mixture
import Verif.Spec.MultiBulk
import Verif.Spec.NextFacet
import Verif.Spec.NoBack
import Verif.Spec.Noise
import Verif.Spec.NoiseTotals
import Verif.Spec.OpticalThickness
import Verif.Spec.Parasitic
import Verif.Spec.Planar
import Verif.Spec.PolChoice
import Verif.Spec.Polarised
import Verif.Spec.RCWA
import Verif.Spec.RTCalculate
import Verif.Spec.RTFunction
import Verif.Spec.RTMatrix
import Verif.Spec.RTScan
import Verif.Spec.Ray
import Verif.Spec.RcwaShapes
import Verif.Spec.RcwaStructure
import Verif.Spec.RcwaWavelengths
import Verif.Spec.Restart
import Verif.Spec.Reverse
import Verif.Spec.Scale
import Verif.Spec.Split
import Verif.Spec.SplitLayers
import Verif.Spec.Stability
import Verif.Spec.StackBranching
import Verif.Spec.Steady
import Verif.Spec.Steep
import Verif.Spec.Supercell
import Verif.Spec.System
import Verif.Spec.Thicker
import Verif.Spec.Thickness
import Verif.Spec.Thresh
import Verif.Spec.TraceStack
import Verif.Spec.TraceSurface
import Verif.Spec.Trapping
import Verif.Spec.Turn
import Verif.Spec.Turned
import Verif.Spec.WavelengthOrder
import Verif.Lemmas.Absorption
import Verif.Lemmas.Angles
import Verif.Lemmas.Binning
import Verif.Lemmas.Files
import Verif.Lemmas.Files2
import Verif.Lemmas.Fresnel
import Verif.Lemmas.Hoeffding
import Verif.Lemmas.Ideal
import Verif.Lemmas.Intersect
import Verif.Lemmas.Launch
import Verif.Lemmas.MatMul
import Verif.Lemmas.MultiBulk
import Verif.Lemmas.MultiBulkProf
import Verif.Lemmas.NextFacet
import Verif.Lemmas.Np
import Verif.Lemmas.Profile
import Verif.Lemmas.RTCalculate
import Verif.Lemmas.RTFunction
import Verif.Lemmas.RTMatrix
import Verif.Lemmas.RTMatrix2
import Verif.Lemmas.RTScan
import Verif.Lemmas.RayFormat
import Verif.Lemmas.RayFormat2
import Verif.Lemmas.RayStack
import Verif.Lemmas.RayStack2
import Verif.Lemmas.TornFiles
import Verif.Lemmas.Trapped
import Verif.Lemmas.Trapz
import Verif.Lemmas.Wander
import Verif.Props.Absorption
import Verif.Props.Agree
import Verif.Props.Angles
import Verif.Props.Area
import Verif.Props.Azimuth
import Verif.Props.BeerLambert
import Verif.Props.Cell
import Verif.Props.Compare
import Verif.Props.Concurrent
import Verif.Props.Cone
import Verif.Props.Converge
import Verif.Props.DepthLabels
import Verif.Props.Diffraction
import Verif.Props.Diffuse
import Verif.Props.DiffuseLimit
import Verif.Props.EndToEnd
import Verif.Props.EndToEndMethods
import Verif.Props.Files
import Verif.Props.Files2
import Verif.Props.FineProfile
import Verif.Props.FirstMeeting
import Verif.Props.FlatLayers
import Verif.Props.FlatLayersRT
import Verif.Props.FlatMatrix
import Verif.Props.FlatMatrix2
import Verif.Props.FlatRT
import Verif.Props.FlatSlab
import Verif.Props.FlatTrace
import Verif.Props.Fresnel
import Verif.Props.FrontTexture
import Verif.Props.Gentle
import Verif.Props.Geometry
import Verif.Props.Geometry2
import Verif.Props.Hyperhemisphere
import Verif.Props.Ideal
import Verif.Props.IntProfile
import Verif.Props.Interface
import Verif.Props.Launch
import Verif.Props.LayerFunction
import Verif.Props.LayerShares
import Verif.Props.LayerShares2
import Verif.Props.MatMul
import Verif.Props.Matched
import Verif.Props.MatrixProfile
import Verif.Props.Methods
import Verif.Props.Mirror
import Verif.Props.MirrorLimit
import Verif.Props.Mixture
import Verif.Props.MultiBulk
import Verif.Props.MultiBulkProf
import Verif.Props.NextFacet
import Verif.Props.NoBack
import Verif.Props.Noise
import Verif.Props.NoiseLayers
import Verif.Props.NoiseTraced
import Verif.Props.OnlyIncidence
import Verif.Props.OpticalThickness
import Verif.Props.Options
import Verif.Props.OrderDirections
import Verif.Props.Parallel
import Verif.Props.Parasitic
import Verif.Props.Planar
import Verif.Props.PlanarProfile
import Verif.Props.PolChoice
import Verif.Props.Polarised
import Verif.Props.Profile
import Verif.Props.RCWA
import Verif.Props.RCWA2
import Verif.Props.RCWA3
import Verif.Props.RCWAFlux
import Verif.Props.RTBuild
import Verif.Props.RTCalculate
import Verif.Props.RTFunction
import Verif.Props.RTFunction2
import Verif.Props.RTMatrix
import Verif.Props.RTMatrix2
import Verif.Props.RTProfiles
import Verif.Props.RTScan
import Verif.Props.RTStart
import Verif.Props.RTTables
import Verif.Props.RayFormat
import Verif.Props.RayStack
import Verif.Props.RcwaFields
import Verif.Props.RcwaMaps
import Verif.Props.RcwaOptions
import Verif.Props.RcwaProfiles
import Verif.Props.RcwaStructure
import Verif.Props.RcwaWavelengths
import Verif.Props.Restart
import Verif.Props.Restart2
import Verif.Props.Reverse
import Verif.Props.Roughness
import Verif.Props.Scale
import Verif.Props.SharedFolder
import Verif.Props.Split
import Verif.Props.SplitLayers
import Verif.Props.Stability
import Verif.Props.Stability2
import Verif.Props.Statistics
import Verif.Props.Steady
import Verif.Props.Steep
import Verif.Props.Summary
import Verif.Props.Supercell
import Verif.Props.Surface
import Verif.Props.TMM
import Verif.Props.TMMStack
import Verif.Props.TableLookup
import Verif.Props.Termination
import Verif.Props.Textures
import Verif.Props.Thicker
import Verif.Props.Thickness
import Verif.Props.Thresh
import Verif.Props.TmmDepths
import Verif.Props.TornFiles
import Verif.Props.TraceStack
import Verif.Props.TraceSurface
import Verif.Props.Trapping
import Verif.Props.Turn
import Verif.Props.Turned
import Verif.Props.Unbiased
import Verif.Props.UnbiasedMatrix
import Verif.Props.UnbiasedStack
import Verif.Props.Wander
import Verif.Props.WavelengthOrder
import Verif.Props.Witnesses
