import Verif.Model.Again
import Verif.Model.Aniso
import Verif.Model.Basics
import Verif.Model.CApi
import Verif.Model.CNumber
import Verif.Model.Cascade
import Verif.Model.CgmApi
import Verif.Model.CgmRange
import Verif.Model.Chain
import Verif.Model.ChanceText
import Verif.Model.Cmd
import Verif.Model.Data
import Verif.Model.Driver
import Verif.Model.Event
import Verif.Model.Exciton
import Verif.Model.ExcitonRun
import Verif.Model.Float
import Verif.Model.FloatBranch
import Verif.Model.FloatCascade
import Verif.Model.FloatDecay
import Verif.Model.FloatGauss
import Verif.Model.FloatNeutron
import Verif.Model.FloatPhoton
import Verif.Model.FloatPick
import Verif.Model.FloatShare
import Verif.Model.FloatStep
import Verif.Model.FloatSummary
import Verif.Model.FloatTime
import Verif.Model.Fragments
import Verif.Model.Gamcas
import Verif.Model.Gauss
import Verif.Model.Grid
import Verif.Model.Gtrans
import Verif.Model.HF
import Verif.Model.Input
import Verif.Model.KD
import Verif.Model.Kinematics
import Verif.Model.LevDen
import Verif.Model.LevelText
import Verif.Model.Levels
import Verif.Model.Lifecycle
import Verif.Model.Load
import Verif.Model.Memory
import Verif.Model.Mixed
import Verif.Model.Optical
import Verif.Model.Overflow
import Verif.Model.Parser
import Verif.Model.Popinit
import Verif.Model.PreSpectra
import Verif.Model.PreeqAngle
import Verif.Model.Prefission
import Verif.Model.Printer
import Verif.Model.Ripl
import Verif.Model.Rnd
import Verif.Model.Screen
import Verif.Model.Session
import Verif.Model.SpinPar
import Verif.Model.Stream
import Verif.Model.Summary
import Verif.Model.Text
import Verif.Model.Toolkit
import Verif.Model.Toolkit2
import Verif.Model.Twister
import Verif.Model.Wahl
import Verif.Model.Warn
import Verif.Model.Whole
import Verif.Model.YieldFiles
import Verif.Model.Yields
import Verif.Proofs.Accept
import Verif.Proofs.Again
import Verif.Proofs.Aniso
import Verif.Proofs.Cascade
import Verif.Proofs.CgmApi
import Verif.Proofs.Chain
import Verif.Proofs.ChainOpen
import Verif.Proofs.ChanceText
import Verif.Proofs.Cut
import Verif.Proofs.Data
import Verif.Proofs.Decay
import Verif.Proofs.DecayLaw
import Verif.Proofs.Directions
import Verif.Proofs.Driver
import Verif.Proofs.Emit
import Verif.Proofs.EmitLaw
import Verif.Proofs.Energy
import Verif.Proofs.Event
import Verif.Proofs.Exchange
import Verif.Proofs.Exciton
import Verif.Proofs.ExcitonRates
import Verif.Proofs.ExcitonReal
import Verif.Proofs.ExcitonRun
import Verif.Proofs.Float
import Verif.Proofs.FloatDecay
import Verif.Proofs.ForcedLaw
import Verif.Proofs.Fragment
import Verif.Proofs.Fragments
import Verif.Proofs.Gamcas
import Verif.Proofs.Gauss
import Verif.Proofs.Grid
import Verif.Proofs.Gtrans
import Verif.Proofs.HF
import Verif.Proofs.History
import Verif.Proofs.InitialLaw
import Verif.Proofs.Isotropy
import Verif.Proofs.KD
import Verif.Proofs.Kernel
import Verif.Proofs.KernelMore
import Verif.Proofs.Kinematics
import Verif.Proofs.Law
import Verif.Proofs.LevDen
import Verif.Proofs.LevelText
import Verif.Proofs.Lifecycle
import Verif.Proofs.Memory
import Verif.Proofs.OneDraw
import Verif.Proofs.Optical
import Verif.Proofs.OpticalIn
import Verif.Proofs.OpticalT
import Verif.Proofs.OpticalW
import Verif.Proofs.Pad
import Verif.Proofs.Pairs
import Verif.Proofs.PassLaw
import Verif.Proofs.PathLaw
import Verif.Proofs.Popinit
import Verif.Proofs.PreEnergy
import Verif.Proofs.PreLaw
import Verif.Proofs.Prefission
import Verif.Proofs.Reach
import Verif.Proofs.Record
import Verif.Proofs.Rejection
import Verif.Proofs.Ripl
import Verif.Proofs.RtaTable
import Verif.Proofs.Runs
import Verif.Proofs.Safe
import Verif.Proofs.Select
import Verif.Proofs.SelectGen
import Verif.Proofs.Session
import Verif.Proofs.SessionEvent
import Verif.Proofs.Sound
import Verif.Proofs.SpinPar
import Verif.Proofs.Stale
import Verif.Proofs.StepKernel
import Verif.Proofs.StepLaw
import Verif.Proofs.Stream
import Verif.Proofs.Terminate
import Verif.Proofs.Text
import Verif.Proofs.Toolkit
import Verif.Proofs.Twister
import Verif.Proofs.Wahl
import Verif.Proofs.WalkLaw
import Verif.Proofs.Walks
import Verif.Proofs.Whole
import Verif.Proofs.WholeLaw
import Verif.Proofs.Widths
import Verif.Proofs.YieldFiles
import Verif.Proofs.Yields
import Verif.Props.Again
import Verif.Props.Angular
import Verif.Props.Aniso
import Verif.Props.CApi
import Verif.Props.CNumber
import Verif.Props.Cascade
import Verif.Props.CgmApi
import Verif.Props.CgmRange
import Verif.Props.Chain
import Verif.Props.ChanceText
import Verif.Props.Cmd
import Verif.Props.Columns
import Verif.Props.Cut
import Verif.Props.CutRanks
import Verif.Props.CutYields
import Verif.Props.Data
import Verif.Props.Demo
import Verif.Props.Driver
import Verif.Props.EndToEnd
import Verif.Props.Event
import Verif.Props.Exciton
import Verif.Props.ExcitonRun
import Verif.Props.Float
import Verif.Props.FloatBin
import Verif.Props.FloatBranch
import Verif.Props.FloatCascade
import Verif.Props.FloatCompete
import Verif.Props.FloatDecay
import Verif.Props.FloatDirection
import Verif.Props.FloatForced
import Verif.Props.FloatGauss
import Verif.Props.FloatIndex
import Verif.Props.FloatIsotropy
import Verif.Props.FloatNeutron
import Verif.Props.FloatPhoton
import Verif.Props.FloatPick
import Verif.Props.FloatShare
import Verif.Props.FloatStep
import Verif.Props.FloatSum
import Verif.Props.FloatSumChance
import Verif.Props.FloatSummary
import Verif.Props.FloatTime
import Verif.Props.Fragments
import Verif.Props.Fresh
import Verif.Props.Gamcas
import Verif.Props.Gauss
import Verif.Props.Grid
import Verif.Props.Gtrans
import Verif.Props.HF
import Verif.Props.History
import Verif.Props.Initial
import Verif.Props.Input
import Verif.Props.Isotropy
import Verif.Props.KD
import Verif.Props.KinDecay
import Verif.Props.KinEvent
import Verif.Props.Kinematics
import Verif.Props.LabSpectrum
import Verif.Props.Law
import Verif.Props.LawCascade
import Verif.Props.LawStep
import Verif.Props.LevDen
import Verif.Props.LevDen2
import Verif.Props.LevelText
import Verif.Props.Levels
import Verif.Props.Lifecycle
import Verif.Props.MeanRecoil
import Verif.Props.Memory
import Verif.Props.Mixed
import Verif.Props.Modes
import Verif.Props.Optical
import Verif.Props.Overflow
import Verif.Props.Path
import Verif.Props.PhotonMean
import Verif.Props.PhotonSpectrum
import Verif.Props.PreSpectra
import Verif.Props.PreeqAngle
import Verif.Props.Prefission
import Verif.Props.PrefissionLaw
import Verif.Props.RtaTable
import Verif.Props.Runs
import Verif.Props.Sampling
import Verif.Props.Screen
import Verif.Props.Session
import Verif.Props.ShareSlopes
import Verif.Props.Spectrum
import Verif.Props.Spin
import Verif.Props.SpinPar
import Verif.Props.Stream
import Verif.Props.StreamBad
import Verif.Props.Summary
import Verif.Props.Toolkit
import Verif.Props.Toolkit2
import Verif.Props.Twister
import Verif.Props.Wahl
import Verif.Props.Whole
import Verif.Props.YieldFiles
import Verif.Props.Yields
import Verif.Spec.Branching
import Verif.Spec.CApi
import Verif.Spec.Cascade
import Verif.Spec.CgmLines
import Verif.Spec.ChanceText
import Verif.Spec.Cmd
import Verif.Spec.Columns
import Verif.Spec.Cut
import Verif.Spec.Data
import Verif.Spec.Driver
import Verif.Spec.EndToEnd
import Verif.Spec.Event
import Verif.Spec.Exciton
import Verif.Spec.ExcitonRun
import Verif.Spec.Float
import Verif.Spec.FloatGauss
import Verif.Spec.Fresh
import Verif.Spec.Gtrans
import Verif.Spec.History
import Verif.Spec.Initial
import Verif.Spec.Isotropy
import Verif.Spec.Kinematics
import Verif.Spec.Law
import Verif.Spec.LawIn
import Verif.Spec.LevelText
import Verif.Spec.Levels
import Verif.Spec.Mean
import Verif.Spec.Memory
import Verif.Spec.Optical
import Verif.Spec.Overflow
import Verif.Spec.Path
import Verif.Spec.PreSpectra
import Verif.Spec.Prefission
import Verif.Spec.PrefissionLaw
import Verif.Spec.Reactions
import Verif.Spec.RtaTable
import Verif.Spec.Runs
import Verif.Spec.Screen
import Verif.Spec.Select
import Verif.Spec.Session
import Verif.Spec.Spectrum
import Verif.Spec.Summary
import Verif.Spec.Toolkit
import Verif.Spec.Toolkit2
import Verif.Spec.Wahl
import Verif.Spec.Whole
import Verif.Spec.Widths
import Verif.Spec.YieldFiles
import Verif.Tactics
