import Verif.Props.Dofs
import Verif.Props.Colouring
import Verif.Props.Distributed
import Verif.Props.Eager
import Verif.Props.Options
import Verif.Props.Operators
import Verif.Props.CellPair
import Verif.Props.Schedule
import Verif.Props.Pairs
import Verif.Props.Dense
import Verif.Props.Sparse
import Verif.Props.Linear
import Verif.Props.Mixed
import Verif.Props.Symmetry
import Verif.Props.Sphere
import Verif.Props.Screen
import Verif.Props.Python
import Verif.Props.Partition
import Verif.Props.SphereWidth
import Verif.Props.Builder
import Verif.Props.Numbering
import Verif.Props.Rules
import Verif.Props.Motion
import Verif.Props.Green
import Verif.Props.PythonData
import Verif.Props.Nested
import Verif.Props.Locality
import Verif.Props.Form
import Verif.Props.Conjugate
import Verif.Props.Rounding
import Verif.Props.Waiting
import Verif.Props.Settings
import Verif.Props.Leaks
import Verif.Props.Termination
import Verif.Props.Memory
import Verif.Props.Crash
import Verif.Props.Sequence
import Verif.Props.Words
import Verif.Props.ShapeRounding
import Verif.Props.RoundingSymmetry
import Verif.Props.RoundingSparse
import Verif.Props.PythonSession
import Verif.Props.Vertices
import Verif.Props.Convergence
import Verif.Props.Accuracy
import Verif.Props.Inexact
import Verif.Props.ShapeSurface
import Verif.Props.Range
import Verif.Props.Positive
import Verif.Props.Curl
import Verif.Props.Gradient
import Verif.Props.Planar
import Verif.Props.Gauss
import Verif.Props.SphereQuality
import Verif.Props.SphereArea
import Verif.Props.ShapeFloat
import Verif.Props.ShapeCalls
import Verif.Props.Library
import Verif.Props.Helmholtz
import Verif.Props.Reserve
import Verif.Props.RoundingParts
import Verif.Props.SequenceEager
import Verif.Spec.Symmetric
import Verif.Proofs.Symmetric
import Verif.Proofs.Congruent
import Verif.Proofs.ScreenParts
import Verif.Props.Congruent
import Verif.Props.Symmetric
import Verif.Spec.Families
import Verif.Props.Families
import Verif.Model.CInterface
import Verif.Spec.CInterface
import Verif.Proofs.CInterface
import Verif.Props.CInterface
import Verif.Model.Tests
import Verif.Spec.Tests
import Verif.Proofs.Tests
import Verif.Proofs.TestsSingular
import Verif.Props.Tests
import Verif.Model.PythonRecreate
import Verif.Spec.PythonRecreate
import Verif.Props.PythonRecreate
import Verif.Spec.Traffic
import Verif.Proofs.Traffic
import Verif.Props.Traffic
import Verif.Spec.Apart
import Verif.Proofs.Apart
import Verif.Props.Apart
import Verif.Spec.Lagrange
import Verif.Proofs.Lagrange
import Verif.Proofs.Continuity
import Verif.Proofs.Jump
import Verif.Proofs.EdgesAgree
import Verif.Props.Continuity
import Verif.Spec.Nodal
import Verif.Proofs.Nodal
import Verif.Props.Nodal
import Verif.Proofs.Interpolation
import Verif.Spec.Degrees
import Verif.Proofs.Degrees
import Verif.Proofs.BestApproximation
import Verif.Props.Degrees
import Verif.Model.FindExamples
import Verif.Spec.FindExamples
import Verif.Proofs.FindExamples
import Verif.Props.FindExamples
import Verif.Model.Concurrent
import Verif.Spec.Concurrent
import Verif.Proofs.Concurrent
import Verif.Props.Concurrent
import Verif.Spec.Decay
import Verif.Proofs.Decay
import Verif.Props.Decay
import Verif.Spec.Frequency
import Verif.Proofs.Frequency
import Verif.Props.Frequency
import Verif.Model.CThreads
import Verif.Spec.CThreads
import Verif.Proofs.CThreads
import Verif.Props.CThreads
import Verif.Spec.Sweep
import Verif.Proofs.Sweep
import Verif.Props.Sweep
import Verif.Model.Allocator
import Verif.Spec.Allocator
import Verif.Proofs.Allocator
import Verif.Props.Allocator
import Verif.Model.ConcurrentPanic
import Verif.Spec.ConcurrentPanic
import Verif.Proofs.ConcurrentPanic
import Verif.Props.ConcurrentPanic
import Verif.Spec.Touching
import Verif.Proofs.Touching
import Verif.Proofs.TouchingScreens
import Verif.Props.Touching
import Verif.Spec.Work
import Verif.Props.Work
import Verif.Props.TouchingParts
import Verif.Spec.MissingCells
import Verif.Props.MissingCells
import Verif.Model.AllocThreads
import Verif.Spec.AllocThreads
import Verif.Proofs.AllocThreads
import Verif.Props.AllocThreads
import Verif.Spec.CMisuse
import Verif.Props.CMisuse
import Verif.Spec.SessionMisuse
import Verif.Props.SessionMisuse
import Verif.Model.SessionAddresses
import Verif.Spec.SessionAddresses
import Verif.Proofs.SessionAddresses
import Verif.Props.SessionAddresses
import Verif.Model.PyThreads
import Verif.Spec.PyThreads
import Verif.Proofs.PyThreads
import Verif.Proofs.PyApart
import Verif.Props.PyThreads
