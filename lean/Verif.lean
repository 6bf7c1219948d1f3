import Verif.TimeLoop.Props
import Verif.Cfl.Props
import Verif.Schemes.Props
import Verif.Tendencies.Props
import Verif.Fourier.Props
import Verif.PhasePool.Props
import Verif.StateInit.Props
import Verif.StateInit.PropsFields
import Verif.VarCache.Props
import Verif.Params.Props
import Verif.Cadence.Props
import Verif.Series.Props
import Verif.PhysFiles.Props
import Verif.RunDirs.Props
import Verif.Restart.Props
import Verif.Modes.Props
import Verif.Coarse.Props
import Verif.Vectors.Props
import Verif.Forcing.Props
import Verif.Forcing.PartK
import Verif.Forcing.ModelKolmo
import Verif.Forcing.PropsKolmo
import Verif.Motion.Props
import Verif.ForcedRegion.Props
import Verif.ForcedRegion.ModelPlot
import Verif.ForcedRegion.PropsPlot
import Verif.Energy.Props
import Verif.Energy.Props2d
import Verif.Energy.PropsPlate
import Verif.Strat.Props
import Verif.Strat.PropsCheck
import Verif.Sw1l.Props
import Verif.Models0d.Props
import Verif.FiniteDiff.Props2d
import Verif.Dissip.Props
import Verif.Preproc.Props
import Verif.Reduce.Props
import Verif.Extend.Props
import Verif.Increm.Props
import Verif.Burgers.Props
import Verif.Smagorinsky.Props
import Verif.Galerkin.Props
import Verif.Galerkin.PropsPlate
import Verif.SpectBudget.Props
import Verif.SpectBudget.ModelEps
import Verif.SpectBudget.PropsEps
import Verif.SpatialMeans.Props
import Verif.SpatialMeans.Props3dStrat
import Verif.SpatialMeans.PropsSw1l
import Verif.MeansFile.Props
import Verif.MeansFile.PropsRestart
import Verif.MeansFile.PropsTimes
import Verif.Spectra.Props
import Verif.Spectra.PropsValues
import Verif.SpatioTemporal.Props
import Verif.SpatioTemporal.PropsValues
import Verif.Prescribed.Props
import Verif.InitFields.Props
import Verif.InitFields.PropsOther
import Verif.SpatialMeans.PropsParts
import Verif.SpatialMeans.PropsForce
import Verif.Spectra2d.Props
import Verif.Spectra2d.PropsValues
import Verif.StdOut.Props
import Verif.StdOut.PropsTimes
import Verif.StdOut.PropsUtil
import Verif.Pdf.Props
import Verif.Pdf.PropsPlot
import Verif.Pdf.PropsFig
import Verif.MeanValues.Props
import Verif.MeanValues.PropsValues
import Verif.Linear.Props
import Verif.Sections.Props
import Verif.Sections.PropsPlot
import Verif.Movies.Props
import Verif.Launcher.Props
import Verif.Sw1lForcing.Props
import Verif.Sw1lBudget.PropsMsw
import Verif.Sw1lBudget.PropsViolated
import Verif.StdOut.PropsMore
import Verif.StdOut.PropsPlot
import Verif.InitFields.PropsMore
import Verif.Spectra2d.PropsMore
import Verif.CorrelFreq.PropsRun
import Verif.SpatioTemporal.PropsPlot
import Verif.SpatioTemporal.PropsTPlot
import Verif.Spectra.PropsCross
import Verif.Hexa.Props
import Verif.StateVars.Props
import Verif.Sw1l.ModelMod
import Verif.Galerkin.PropsSw1lMod
import Verif.Xmf.Props
import Verif.ModifResol.Props
import Verif.StateFile.Props
import Verif.Sw1lBudget.PropsGroups
import Verif.StateVars.Props3d
import Verif.Regions.Props
import Verif.Regions.PropsWhole
import Verif.Continuation.Props
import Verif.Convergence.Props
import Verif.Convergence.PropsOrder
import Verif.Bench.Props
import Verif.Bench.PropsMore
import Verif.Loading.Props
import Verif.Loading.PropsParams
import Verif.Procs.Props
import Verif.Procs.PropsRun
import Verif.Procs.PropsRaces
import Verif.Convergence.Existence
import Verif.EndToEnd.Props
import Verif.EndToEnd.PropsStrat
import Verif.ModifResol.PropsSame
import Verif.StateVars.PropsStored
import Verif.StateFile.PropsOld
import Verif.Cfl.PropsStrat
import Verif.DimNumbers.Props
import Verif.DimNumbers.PropsStrat
import Verif.DimNumbers.ModelOmegas
import Verif.DimNumbers.PropsOmegas
import Verif.Convergence.SpecForced
import Verif.Convergence.LemmasForced
import Verif.Convergence.PropsForced
import Verif.EndToEnd.SpecTime
import Verif.EndToEnd.LemmasTime
import Verif.EndToEnd.PropsTime
import Verif.EndToEnd.ModelMore
import Verif.EndToEnd.SpecMore
import Verif.EndToEnd.LemmasLocal
import Verif.EndToEnd.PropsMore
import Verif.EndToEnd.ModelPlate
import Verif.EndToEnd.SpecPlate
import Verif.EndToEnd.LemmasPlate
import Verif.EndToEnd.PropsPlate
import Verif.Procs.PropsFiles
import Verif.Floats.Props
import Verif.Floats.PropsOutputs
import Verif.Floats.PropsTrunc
import Verif.Convergence.PropsPerturbed
import Verif.EndToEnd.PropsRounding
import Verif.Uxuy.Props
import Verif.Uxuy.PropsRuns
import Verif.Oper.Props
import Verif.Oper.PropsRuns
import Verif.TimeSignals.Props
import Verif.Probes.Props
import Verif.Sphere.Props
import Verif.Symmetry.Props
import Verif.Symmetry.PropsAliasing
import Verif.Symmetry.PropsReductions
import Verif.Symmetry.PropsNoBuoyancy
import Verif.Preproc.PropsUnits
import Verif.RunName.Props
import Verif.Symmetry.PropsMirror
import Verif.Symmetry.PropsMirrorEx
import Verif.RunName.PropsForcing
import Verif.Build.Props
import Verif.Build.PropsInit
import Verif.Symmetry.PropsCfl
import Verif.Symmetry.PropsCflStrat
import Verif.BudgetCurves.Props
import Verif.BudgetCurves.PropsFlow
import Verif.Invariants.Lemmas
import Verif.Invariants.LemmasRuns
import Verif.Invariants.Spec
import Verif.Invariants.SpecEnergy
import Verif.Invariants.Props
import Verif.Invariants.PropsHypo
import Verif.Invariants.PropsEnergy
import Verif.Invariants.PropsEnergyMore
import Verif.SpecFigs.Model
import Verif.SpecFigs.Spec
import Verif.SpecFigs.Lemmas
import Verif.SpecFigs.Props
import Verif.SpecFigs.ModelStrat3d
import Verif.SpecFigs.PropsStrat3d
import Verif.HorizMeans.Model
import Verif.HorizMeans.Spec
import Verif.HorizMeans.Lemmas
import Verif.HorizMeans.Props
import Verif.HorizMeans.PropsLoad
import Verif.Galilean.Spec
import Verif.Galilean.Lemmas
import Verif.Galilean.Props
import Verif.Galilean.PropsFinite
import Verif.Symmetry.ModelSw1l
import Verif.Symmetry.SpecSw1l
import Verif.Symmetry.Sw1l
import Verif.Symmetry.PropsSw1l
import Verif.Symmetry.ModelPlate
import Verif.Symmetry.SpecPlate
import Verif.Symmetry.Plate
import Verif.Symmetry.PropsPlate
import Verif.NonInterference.Model
import Verif.NonInterference.Spec
import Verif.NonInterference.Lemmas
import Verif.NonInterference.Props
import Verif.Reversal.Spec
import Verif.Reversal.Lemmas
import Verif.Reversal.LemmasRev
import Verif.Reversal.Props
import Verif.Reversal.PropsVisc
import Verif.Replicas.Spec
import Verif.Replicas.Lemmas
import Verif.Replicas.LemmasSw
import Verif.Replicas.Props
import Verif.ExactFlows.Props
import Verif.BudgetFigs.Props
import Verif.Reality.Props
import Verif.Reality.PropsMore
import Verif.RealForce.Model
import Verif.RealForce.Spec
import Verif.RealForce.Lemmas
import Verif.RealForce.Props
import Verif.RealForce.Model3d
import Verif.RealForce.Props3d
import Verif.Smooth.Spec
import Verif.Smooth.Lemmas
import Verif.Smooth.Props
import Verif.Smooth.PropsCfl
import Verif.Smooth.PropsNu
import Verif.Smooth.PropsPhys
