import Verif.Props.IndexTable
import Verif.Model.Particle
import Verif.Model.MatrixRepr
import Verif.Spec.Fock
import Verif.Proofs.PyLemmas
import Verif.Proofs.Fock
import Verif.Proofs.Order
import Verif.Props.QuantumState
import Verif.Proofs.Particle
import Verif.Props.Particle
import Verif.Props.Normalize
import Verif.Props.Matrix
import Verif.Props.MatrixTerm
import Verif.Props.HilbertSpace
import Verif.Props.Specifier
import Verif.Props.Conservation
import Verif.Props.Spin
import Verif.Props.Schwinger
import Verif.Props.Factory
import Verif.Props.Averages
import Verif.Props.Precision
import Verif.Props.Bond
import Verif.Props.Line2D
import Verif.Props.Polygon
import Verif.Props.Rotation3D
import Verif.Model.Averages
import Verif.Model.Bond
import Verif.Model.ColorPrint
import Verif.Model.Factory
import Verif.Model.Float64
import Verif.Model.HilbertSpace
import Verif.Model.IndexTable
import Verif.Model.Line2D
import Verif.Model.PandC
import Verif.Model.Polygon
import Verif.Model.QuantumState
import Verif.Model.Rotation3D
import Verif.Model.RunTimeEnv
import Verif.Model.Spin
import Verif.Proofs.Averages
import Verif.Proofs.Bits
import Verif.Proofs.ColorPrint
import Verif.Proofs.Conserve
import Verif.Proofs.Float64
import Verif.Proofs.HilbertSpace
import Verif.Proofs.IndexTable
import Verif.Proofs.Kernels
import Verif.Proofs.MatrixAlgebra
import Verif.Proofs.MatrixRepr
import Verif.Proofs.MatrixTerm
import Verif.Proofs.Normalize
import Verif.Proofs.PandC
import Verif.Proofs.Polygon
import Verif.Proofs.RunTimeEnv
import Verif.Proofs.Schwinger
import Verif.Proofs.SchwingerTerm
import Verif.Proofs.Specifier
import Verif.Proofs.Spin
import Verif.Proofs.SpinAlgebra
import Verif.Proofs.SpinTerm
import Verif.Proofs.StableSort
import Verif.Props.ColorPrint
import Verif.Props.PandC
import Verif.Props.RunTimeEnv
import Verif.Py
import Verif.Spec.Averages
import Verif.Spec.ColorPrint
import Verif.Spec.FockSpace
import Verif.Spec.FockTerm
import Verif.Spec.Geometry
import Verif.Spec.Inversions
import Verif.Spec.Order
import Verif.Spec.Rotation
import Verif.Spec.RunTimeEnv
import Verif.Spec.Schwinger
import Verif.Spec.Spin
import Verif.Model.GreenFunction
import Verif.Model.Lanczos
import Verif.Proofs.GreenFunction
import Verif.Proofs.Lanczos
import Verif.Proofs.LanczosGreen
import Verif.Props.GreenFunction
import Verif.Props.Lanczos
import Verif.Spec.GreenFunction
import Verif.Spec.Lanczos
import Verif.Model.KPath
import Verif.Proofs.KPath
import Verif.Props.KPath
import Verif.Spec.KPath
import Verif.Model.Lattice
import Verif.Proofs.Lattice
import Verif.Proofs.LatticeBonds
import Verif.Proofs.LatticeDistances
import Verif.Proofs.LatticeSearch
import Verif.Proofs.LatticeShell
import Verif.Props.Lattice
import Verif.Props.LatticeBonds
import Verif.Props.LatticeComplete
import Verif.Props.LatticeDecompose
import Verif.Props.LatticeDistance
import Verif.Props.LatticeNeighbor
import Verif.Spec.Lattice
import Verif.Model.LatticeDatabase
import Verif.Proofs.LatticeBuilt
import Verif.Proofs.LatticeCells
import Verif.Proofs.LatticeClusters
import Verif.Proofs.LatticeDatabase
import Verif.Proofs.LatticeSymmetry
import Verif.Props.LatticeDatabase
import Verif.Props.LatticeSymmetry
import Verif.Props.LatticeSymmetryDB
import Verif.Spec.LatticeDatabase
import Verif.Props.Sectors
import Verif.Proofs.Reorder
import Verif.Props.Reorder
import Verif.Props.NumberCommutator
import Verif.Props.SpinSymmetry
import Verif.Props.LanczosMoments
import Verif.Props.GreenSpectral
import Verif.Model.OperatorTable
import Verif.Props.OperatorTable
import Verif.Model.Text
import Verif.Proofs.Latex
import Verif.Proofs.Text
import Verif.Props.Latex
import Verif.Props.Repr
import Verif.Spec.Text
import Verif.Model.Draw2DLattice
import Verif.Proofs.Draw2DLattice
import Verif.Props.Draw2DLattice
import Verif.Spec.Draw2DLattice
import Verif.Model.FirstBZ
import Verif.Proofs.FirstBZ
import Verif.Props.FirstBZ
import Verif.Spec.FirstBZ
import Verif.Proofs.ChainBonds
import Verif.Proofs.ChainLengths
import Verif.Proofs.ChainTriples
import Verif.Props.ChainBonds
import Verif.Spec.Chain
import Verif.Model.Demo
import Verif.Proofs.Demo
import Verif.Props.Demo
import Verif.Spec.TightBinding
import Verif.Model.DemoGreen
import Verif.Proofs.DemoExact
import Verif.Proofs.DemoGreen
import Verif.Proofs.DemoSum
import Verif.Proofs.RingGreen
import Verif.Proofs.RingModes
import Verif.Props.DemoGreen
import Verif.Proofs.DemoBases
import Verif.Proofs.DemoFinish
import Verif.Proofs.DemoKrylov
import Verif.Proofs.DemoLanczos
import Verif.Proofs.DemoSectors
import Verif.Props.DemoLanczos
import Verif.Spec.Band
import Verif.Spec.Occupation
import Verif.Model.DemoHeisenberg
import Verif.Proofs.Heisenberg
import Verif.Proofs.HeisenbergGreen
import Verif.Props.DemoHeisenberg
import Verif.Spec.Heisenberg
import Verif.Props.Constructors
import Verif.Model.DemoHubbard
import Verif.Proofs.Cpt
import Verif.Proofs.FockState
import Verif.Proofs.HubbardBand
import Verif.Proofs.HubbardCpt
import Verif.Proofs.HubbardFree
import Verif.Proofs.HubbardGreen
import Verif.Proofs.HubbardH
import Verif.Proofs.HubbardNorm
import Verif.Proofs.HubbardScript
import Verif.Proofs.HubbardSpace
import Verif.Props.DemoHubbard
import Verif.Spec.Hubbard
import Verif.Proofs.NearestBonds
import Verif.Proofs.NearestBuilt
import Verif.Proofs.NearestCells
import Verif.Proofs.NearestGeneric
import Verif.Proofs.NearestSpecial
import Verif.Props.NearestBonds
import Verif.Spec.NearestBonds
import Verif.Spec.NearestBuilt
import Verif.Proofs.NeighborShells
import Verif.Proofs.ShellBuilt
import Verif.Proofs.ShellSecond
import Verif.Proofs.ShellStrips
import Verif.Proofs.ShellSuper
import Verif.Props.NeighborShells
import Verif.Spec.NeighborShells
import Verif.Proofs.SpinBounds
import Verif.Props.SpinBounds
import Verif.Proofs.FreeFermion
import Verif.Props.FreeFermion
import Verif.Proofs.Su2
import Verif.Props.Su2
import Verif.Props.PolygonExact
import Verif.Proofs.DistanceChain
import Verif.Proofs.DistanceExact
import Verif.Proofs.DistanceRect
import Verif.Props.BondsExact
import Verif.Props.DistanceExact
import Verif.Spec.DistanceExact
import Verif.Proofs.DiagonalExact
import Verif.Props.DiagonalExact
import Verif.Props.LatticeBondsExamples
import Verif.Proofs.DecomposeExact
import Verif.Props.DecomposeExact
import Verif.Model.Ownership
import Verif.Proofs.Ownership
import Verif.Proofs.OwnershipStep
import Verif.Props.Ownership
import Verif.Spec.Ownership
import Verif.Proofs.Coordination
import Verif.Props.Coordination
import Verif.Spec.Coordination
import Verif.Model.Settings
import Verif.Proofs.Settings
import Verif.Props.Settings
import Verif.Spec.Settings
import Verif.Proofs.RotationReach
import Verif.Props.RotationReach
import Verif.Model.Show
import Verif.Proofs.PolygonZone
import Verif.Props.PolygonBlind
import Verif.Props.PolygonTol
import Verif.Props.PolygonZone
import Verif.Props.Show
import Verif.Spec.PolygonZone
import Verif.Spec.Show
import Verif.Proofs.LatticeMotion
import Verif.Props.LatticeMotion
import Verif.Props.LatticeSymmetry120
import Verif.Spec.LatticeMotion
import Verif.Model.DemoCluster
import Verif.Proofs.LatticeBand
import Verif.Proofs.LatticeBandRun
import Verif.Proofs.LatticeSites
import Verif.Proofs.LatticeSitesBuilt
import Verif.Proofs.LatticeSteps
import Verif.Proofs.LatticeStepsSpecial
import Verif.Props.LatticeBand
import Verif.Props.LatticeSites
import Verif.Spec.LatticeBand
import Verif.Proofs.BlochBand
import Verif.Proofs.BlochEnergies
import Verif.Proofs.BlochLattices
import Verif.Proofs.BlochRuns
import Verif.Props.BlochBand
import Verif.Spec.BlochBand
import Verif.Proofs.BondLength
import Verif.Props.BondLength
import Verif.Props.BondSites
import Verif.Props.Float64
import Verif.Spec.Bond
import Verif.Spec.Float64
import Verif.Props.Primitives
import Verif.Props.Defaults
import Verif.Model.Printed
import Verif.Proofs.Printed
import Verif.Props.Printed
import Verif.Spec.Printed
import Verif.Model.DemoSpinCluster
import Verif.Proofs.LatticeSpin
import Verif.Props.LatticeSpin
import Verif.Spec.LatticeSpin
import Verif.Model.DemoHubbardCluster
import Verif.Proofs.HubbardCluster
import Verif.Props.HubbardCluster
import Verif.Spec.HubbardCluster
import Verif.Proofs.HubbardBipartite
import Verif.Proofs.HubbardFrustrated
import Verif.Proofs.HubbardRuns
import Verif.Proofs.HubbardSectors
import Verif.Proofs.HubbardSpectra
import Verif.Proofs.HubbardSymmetry
import Verif.Props.HubbardSymmetry
import Verif.Spec.HubbardSymmetry
import Verif.Proofs.SpinReorder
import Verif.Props.SpinReorder
import Verif.Proofs.HubbardFamily
import Verif.Proofs.HubbardLowest
import Verif.Props.HubbardLimits
import Verif.Spec.HubbardLimits
import Verif.Model.BondRound
import Verif.Proofs.BondRound
import Verif.Props.BondRound
import Verif.Proofs.Antiferromagnet
import Verif.Props.Antiferromagnet
import Verif.Spec.Antiferromagnet
import Verif.Model.LineText
import Verif.Proofs.LineText
import Verif.Props.LineText
import Verif.Spec.LineText
import Verif.Proofs.SpaceGroup
import Verif.Props.SpaceGroup
import Verif.Spec.SpaceGroup
import Verif.Proofs.Numbering
import Verif.Proofs.OpenBox
import Verif.Props.Numbering
import Verif.Props.OpenBox
import Verif.Spec.Numbering
import Verif.Spec.OpenBox
import Verif.Props.DefaultsShow
import Verif.Model.LatticeText
import Verif.Proofs.LatticeText
import Verif.Props.LatticeText
import Verif.Proofs.Dimer
import Verif.Props.Dimer
import Verif.Spec.Dimer
import Verif.Model.ShowOperator
import Verif.Props.ShowOperator
import Verif.Spec.ShowOperator
import Verif.Proofs.HubbardDensity
import Verif.Props.HubbardDensity
import Verif.Spec.HubbardDensity
import Verif.Model.Octahedron
import Verif.Proofs.Octahedron
import Verif.Props.Octahedron
import Verif.Spec.Octahedron
import Verif.Proofs.ChainGround
import Verif.Proofs.Perron
import Verif.Props.ChainGround
import Verif.Spec.ChainGround
import Verif.Proofs.Marshall
import Verif.Proofs.Singlet
import Verif.Proofs.SingletCorrelations
import Verif.Proofs.SingletGround
import Verif.Proofs.SingletRun
import Verif.Proofs.SingletSteps
import Verif.Props.Singlet
import Verif.Spec.SingletGround
import Verif.Proofs.SpinLevels
import Verif.Props.SpinLevels
import Verif.Spec.SpinLevels
import Verif.Proofs.AlignedGround
import Verif.Props.AlignedGround
import Verif.Spec.AlignedGround
