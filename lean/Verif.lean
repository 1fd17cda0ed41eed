import Verif.Basic
import Verif.Check.Upstream
import Verif.Model.Assem
import Verif.Model.Bloch
import Verif.Model.Brazil
import Verif.Model.Examples
import Verif.Model.Fem
import Verif.Model.Files
import Verif.Model.Gauss
import Verif.Model.Gui
import Verif.Model.Heap
import Verif.Model.Plot
import Verif.Model.Post
import Verif.Model.Pre
import Verif.Model.Rounded
import Verif.Model.Run
import Verif.Model.Square
import Verif.Model.Template
import Verif.Model.Uel
import Verif.Proofs.Assembly
import Verif.Proofs.Auto
import Verif.Proofs.BeamRoots
import Verif.Proofs.Bloch
import Verif.Proofs.Dme
import Verif.Proofs.Equilibrium
import Verif.Proofs.Files
import Verif.Proofs.Integration
import Verif.Proofs.Kinematics
import Verif.Proofs.Lists
import Verif.Proofs.Lits
import Verif.Proofs.Loads
import Verif.Proofs.Moved
import Verif.Proofs.NullSpace
import Verif.Proofs.Numbering
import Verif.Proofs.Pencil
import Verif.Proofs.Py
import Verif.Proofs.Quadrature
import Verif.Proofs.Recovery
import Verif.Proofs.Rule
import Verif.Proofs.Structure
import Verif.Proofs.Twin
import Verif.Props.Accepted
import Verif.Props.Acoustic
import Verif.Props.AnyRun
import Verif.Props.Assembly
import Verif.Props.AxiAccepted
import Verif.Props.AxiBodies
import Verif.Props.Balance
import Verif.Props.Band
import Verif.Props.BandScale
import Verif.Props.Bands
import Verif.Props.BarModes
import Verif.Props.BarSplit
import Verif.Props.Bars
import Verif.Props.BeamEnergy
import Verif.Props.BeamLine
import Verif.Props.BeamMesh
import Verif.Props.BeamModes
import Verif.Props.BeamSolution
import Verif.Props.BeamWaves
import Verif.Props.Beams
import Verif.Props.Bending
import Verif.Props.Beside
import Verif.Props.BesideAny
import Verif.Props.Bloch
import Verif.Props.BlochChain
import Verif.Props.BlochModes
import Verif.Props.BlochRange
import Verif.Props.Branches
import Verif.Props.Brazil
import Verif.Props.CantModes
import Verif.Props.Changes
import Verif.Props.Compare
import Verif.Props.Continuity
import Verif.Props.Dme
import Verif.Props.Doubling
import Verif.Props.Drivers
import Verif.Props.Elements
import Verif.Props.Estimates
import Verif.Props.Files
import Verif.Props.Folder
import Verif.Props.FrameModes
import Verif.Props.FramePlace
import Verif.Props.FrameSplit
import Verif.Props.FrameSupports
import Verif.Props.FrameWork
import Verif.Props.Frames
import Verif.Props.FreqBound
import Verif.Props.FreqRate
import Verif.Props.Gauss
import Verif.Props.Grid
import Verif.Props.GridModel
import Verif.Props.GridRefine
import Verif.Props.GroupVelocity
import Verif.Props.Inexact
import Verif.Props.Invariance
import Verif.Props.Kinematics
import Verif.Props.LatticeModes
import Verif.Props.LatticeWaves
import Verif.Props.LineTables
import Verif.Props.LoadBounds
import Verif.Props.Loads
import Verif.Props.Magnified
import Verif.Props.Mass
import Verif.Props.MassGlobal
import Verif.Props.Materials
import Verif.Props.Mechanisms
import Verif.Props.Memory
import Verif.Props.MeshTables
import Verif.Props.Mirror
import Verif.Props.Modes
import Verif.Props.Motions
import Verif.Props.NodalStrains
import Verif.Props.Numbering
import Verif.Props.Orders
import Verif.Props.Patch
import Verif.Props.Placement
import Verif.Props.PlateCell
import Verif.Props.PlateStrains
import Verif.Props.PlateWave
import Verif.Props.PlateWaves
import Verif.Props.PlotTruss
import Verif.Props.Principal
import Verif.Props.PrincipalExtremes
import Verif.Props.PureBending
import Verif.Props.Recovery
import Verif.Props.Refinement
import Verif.Props.RoundedRun
import Verif.Props.Rounding
import Verif.Props.RuleSymmetry
import Verif.Props.Run
import Verif.Props.RunOrders
import Verif.Props.Runs
import Verif.Props.Sensitivity
import Verif.Props.Shapes
import Verif.Props.SolidBodies
import Verif.Props.SolidMoves
import Verif.Props.SolidOrder
import Verif.Props.SolidPatch
import Verif.Props.SolidRefine
import Verif.Props.Springs
import Verif.Props.Square
import Verif.Props.Static
import Verif.Props.Steepness
import Verif.Props.StiffRate
import Verif.Props.StrainFrames
import Verif.Props.StrainMatrix
import Verif.Props.StressLinear
import Verif.Props.Success
import Verif.Props.Superpose
import Verif.Props.Supports
import Verif.Props.Symmetry
import Verif.Props.Template
import Verif.Props.TemplateRun
import Verif.Props.Tensor
import Verif.Props.Tris
import Verif.Props.TrussStatics
import Verif.Props.Tuning
import Verif.Props.UserElements
import Verif.Props.UserEnergy
import Verif.Props.UserVibration
import Verif.Props.Variation
import Verif.Props.Vibration
import Verif.Props.WaveSpeed
import Verif.Props.Wellposed
import Verif.Props.Windows
import Verif.Spec.Balance
import Verif.Spec.Bars
import Verif.Spec.Bloch
import Verif.Spec.Bodies
import Verif.Spec.Convex
import Verif.Spec.Element
import Verif.Spec.Equilibrium
import Verif.Spec.Files
import Verif.Spec.Grid
import Verif.Spec.GridModel
import Verif.Spec.Hooke
import Verif.Spec.Integration
import Verif.Spec.Loads
import Verif.Spec.Mesh
import Verif.Spec.Modes
import Verif.Spec.Motion
import Verif.Spec.Numbering
import Verif.Spec.Patch
import Verif.Spec.Recovery
import Verif.Spec.Rules
import Verif.Spec.Scatter
import Verif.Spec.Shape
import Verif.Spec.SolidOrder
import Verif.Spec.SolidPatch
import Verif.Spec.Tables
import Verif.Spec.Variation
