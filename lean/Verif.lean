import Verif.Codes.Props
import Verif.Scripting.Chans
import Verif.Scripting.Ants
import Verif.Scripting.Prms
import Verif.Miriad.SelectProps
import Verif.Fit.FlattenProps
import Verif.Fit.ParamsProps
import Verif.Fit.AntProps
import Verif.Phs.Indices
import Verif.Phs.Props
import Verif.Coord.Angles
import Verif.Amp.Props
import Verif.Util.ND
import Verif.Amp.Arrays
import Verif.Amp.ArraysMixed
import Verif.Amp.Mdlvis
import Verif.Amp.ApplyCal
import Verif.Img.Recenter
import Verif.Img.Wrap
import Verif.Img.Add2Array
import Verif.Img.GridProps
import Verif.Img.HermProps
import Verif.Img.WProps
import Verif.Img.Pixels
import Verif.Img.Imaging
import Verif.Img.WProj
import Verif.Img.SimImage
import Verif.Sky.HealpixProps
import Verif.Sky.SchemeProps
import Verif.Sky.Alm
import Verif.Sky.Facets
import Verif.Sky.MapProps
import Verif.Deconv.CleanProps
import Verif.Deconv.CleanScore
import Verif.Deconv.CleanTerm
import Verif.Deconv.CleanArgs
import Verif.Deconv.CleanFft
import Verif.Deconv.LsqConv
import Verif.Deconv.PosDef
import Verif.Deconv.Fit
import Verif.Dsp.Windows
import Verif.Misc.Catalog
import Verif.Misc.Interp
import Verif.Misc.Julian
import Verif.Phs.Delay
import Verif.Phs.Update
import Verif.Amp.Changes
import Verif.Amp.Pointing
import Verif.Amp.Beams
import Verif.Misc.Fluxes
import Verif.Misc.CatFiles
import Verif.Misc.CatCache
import Verif.Misc.Culgoora
import Verif.Misc.Helm
import Verif.Misc.HelmFit
import Verif.Misc.Xtalk
import Verif.Misc.XtalkDay
import Verif.Misc.Combine
import Verif.Misc.ApplyBp
import Verif.Misc.Cal
import Verif.Amp.FluxCal
import Verif.Misc.AmpClose
import Verif.Amp.BeamAlm
import Verif.Img.Fits
import Verif.Sky.MapFits
import Verif.Img.GaussBeam
import Verif.Util.Double
import Verif.Misc.InterpFull
import Verif.Sky.Sphere
import Verif.Mir.Pack
import Verif.Mir.MaskProps
import Verif.Mir.HioProps
import Verif.Mir.HioSeq
import Verif.Mir.TreeProps
import Verif.Mir.UvVars
import Verif.Mir.UvVisRead
import Verif.Mir.UvAppend
import Verif.Mir.UvObstype
import Verif.Mir.UvDisk
import Verif.Mir.UvDiskVis
import Verif.Mir.UvSelect
import Verif.Mir.UvSelectProps
import Verif.Mir.UvSelectRead
import Verif.Mir.UvSelectC79
import Verif.Mir.Amplitude
import Verif.Mir.Window
import Verif.Mir.SelectKinds
import Verif.Mir.Scale
import Verif.Mir.Decimate
import Verif.Mir.ReadFiles
import Verif.Mir.Header
import Verif.Mir.HeaderProps
import Verif.Mir.HeaderC53
import Verif.Mir.HioText
import Verif.Mir.TreeSeq
import Verif.Mir.UvDir
import Verif.Mir.UvDirProps
import Verif.Mir.UvDirC82
import Verif.Mir.Pipe
import Verif.Mir.PipeRead
import Verif.Mir.PipeWrite
import Verif.Mir.PipeProps
import Verif.Mir.PipeInv
import Verif.Mir.PipeC51
import Verif.Mir.PipeEnd
import Verif.Mir.PipeMore
import Verif.Mir.PipeWhole
import Verif.Mir.PipeDemo
import Verif.Mir.PipeDir
import Verif.Mir.PipeStDir
import Verif.Mir.PullPol
import Verif.Mir.TwoPass
import Verif.Mir.Xrfi
import Verif.Mir.UvGet
import Verif.Mir.PipeItems
import Verif.Mir.PipeSelect
import Verif.Mir.PipeSelectDemo
import Verif.Mir.PipeState
import Verif.Mir.AddSub
import Verif.Coord.ParAng
import Verif.Amp.PhsScript
import Verif.Dsp.Dft
import Verif.Dsp.FilterSrc
import Verif.Dsp.FilterProps
import Verif.Dsp.FilterC90
import Verif.Dsp.FilterMore
import Verif.Dsp.SkyPass
import Verif.Dsp.Spikes
import Verif.Coord.Convert
import Verif.Sky.ModMap
import Verif.Sky.MkMap
import Verif.Deconv.MaxEnt
import Verif.Deconv.FindVar
import Verif.Scripting.Srcs
import Verif.Img.WordWrap
import Verif.Img.MkImg
import Verif.Amp.Stokes
import Verif.Scripting.SrcList
import Verif.Scripting.Options
import Verif.Scripting.OptCluster
import Verif.Img.GridFlux
import Verif.Img.OffGrid
import Verif.Mir.UvText
import Verif.Misc.Compress
import Verif.Fit.FitScore
import Verif.Fit.Snap
import Verif.Fit.Shared
import Verif.Img.ClImg
import Verif.Img.Restore
import Verif.Dsp.FindDelay
import Verif.Dsp.FindDelayBetween
import Verif.Misc.XrfiSimple
import Verif.Misc.PlotUv
import Verif.Misc.PlotMap
import Verif.Misc.RfiDiag
import Verif.Misc.PlotImg
import Verif.Misc.PullAnts
import Verif.Misc.StokesRotate
import Verif.Mir.Views
import Verif.Mir.WriteArgs
import Verif.Mir.UvList
import Verif.Mir.UvSet
import Verif.Mir.UvOverride
import Verif.Mir.UvOverrideRewind
import Verif.Mir.Handles
import Verif.Misc.Special
import Verif.Misc.SrcText
import Verif.Mir.ReadInfo
