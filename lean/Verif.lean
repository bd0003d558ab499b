import Verif.Assemble.BlockLemmas
import Verif.Assemble.Cells
import Verif.Assemble.CellsLemmas
import Verif.Assemble.CellsProps
import Verif.Assemble.CellsSpec
import Verif.Assemble.ConvertLemmas
import Verif.Assemble.GroupLemmas
import Verif.Assemble.JoinLemmas
import Verif.Assemble.Lemmas
import Verif.Assemble.Model
import Verif.Assemble.PairLemmas
import Verif.Assemble.Props
import Verif.Assemble.SeedLemmas
import Verif.Assemble.Spec
import Verif.Autograd.Exponent
import Verif.Autograd.ExponentProps
import Verif.Autograd.Lemmas
import Verif.Autograd.Model
import Verif.Autograd.Props
import Verif.Autograd.Twice
import Verif.Autograd.TwiceProps
import Verif.Catalog.Edits
import Verif.Catalog.EditsProps
import Verif.Catalog.Lemmas
import Verif.Catalog.Model
import Verif.Catalog.Props
import Verif.Catalog.Wizard
import Verif.Catalog.WizardLemmas
import Verif.Catalog.WizardProps
import Verif.Catalog.WizardSpec
import Verif.Compiled.Flatten
import Verif.Compiled.FlattenLemmas
import Verif.Compiled.FlattenProps
import Verif.Compiled.Ift
import Verif.Compiled.IftProps
import Verif.Compiled.Meta
import Verif.Compiled.MetaProps
import Verif.Compiled.Promote
import Verif.Compiled.PromoteLemmas
import Verif.Compiled.PromoteProps
import Verif.Compiled.Segments
import Verif.Compiled.SegmentsLemmas
import Verif.Compiled.SegmentsProps
import Verif.Compiled.Shapes
import Verif.Compiled.ShapesProps
import Verif.Compiled.SubstepPaths
import Verif.Compiled.SubstepPathsProps
import Verif.Compiled.Update
import Verif.Compiled.UpdateProps
import Verif.Compose.Composed
import Verif.Compose.ComposedLemmas
import Verif.Compose.ComposedProps
import Verif.Compose.EvalLemmas
import Verif.Compose.GraphLemmas
import Verif.Compose.KahnLemmas
import Verif.Compose.Normality
import Verif.Compose.NormalityProps
import Verif.Compose.Resolver
import Verif.Compose.ResolverLemmas
import Verif.Compose.ResolverProps
import Verif.Compose.ResolverSpec
import Verif.Dispatch.Async
import Verif.Dispatch.AsyncLemmas
import Verif.Dispatch.AsyncMeasure
import Verif.Dispatch.AsyncProps
import Verif.Dispatch.Batch
import Verif.Dispatch.BatchLemmas
import Verif.Dispatch.BatchLimits
import Verif.Dispatch.BatchProps
import Verif.Dispatch.Mpi
import Verif.Dispatch.MpiProps
import Verif.Dispatch.ParamSync
import Verif.Dispatch.ParamSyncProps
import Verif.Dispatch.Pool
import Verif.Dispatch.PoolProps
import Verif.Dispatch.Scheduler
import Verif.Dispatch.SchedulerLemmas
import Verif.Dispatch.SchedulerProps
import Verif.Dispatch.Shared
import Verif.Dispatch.SharedProps
import Verif.Driver.Compare
import Verif.Driver.CompareProps
import Verif.Driver.Transient
import Verif.Driver.TransientProps
import Verif.Driver.UnitTest
import Verif.Driver.UnitTestLemmas
import Verif.Driver.UnitTestProps
import Verif.Driver.UnitTestSpec
import Verif.Dyn.JoinLemmas
import Verif.Dyn.Lemmas
import Verif.Dyn.Model
import Verif.Dyn.Props
import Verif.Dyn.SliceLemmas
import Verif.Dyn.Spec
import Verif.Eager.Boundary
import Verif.Eager.BoundaryProps
import Verif.Eager.Interpreter
import Verif.Eager.InterpreterProps
import Verif.Eager.Reverse
import Verif.Eager.ReverseLemmas
import Verif.Eager.ReverseProps
import Verif.Export.Baked
import Verif.Export.BakedProps
import Verif.Export.CustomOp
import Verif.Export.CustomOpProps
import Verif.Export.Elf
import Verif.Export.ElfLemmas
import Verif.Export.ElfProps
import Verif.Export.Extensions
import Verif.Export.ExtensionsProps
import Verif.Export.Folder
import Verif.Export.FolderProps
import Verif.Export.Shim
import Verif.Export.ShimProps
import Verif.Export.Stub
import Verif.Export.StubLemmas
import Verif.Export.StubProps
import Verif.Factory.Csv
import Verif.Factory.CsvProps
import Verif.Factory.Objects
import Verif.Factory.ObjectsProps
import Verif.Factory.Tensors
import Verif.Factory.TensorsLemmas
import Verif.Factory.TensorsLemmas2
import Verif.Factory.TensorsProps
import Verif.Factory.TensorsSpec
import Verif.Guard.GuardLemmas
import Verif.Guard.Model
import Verif.Guard.Props
import Verif.Guard.Spec
import Verif.Implicit.Graphs
import Verif.Implicit.GraphsLemmas
import Verif.Implicit.GraphsProps
import Verif.Implicit.Loaders
import Verif.Implicit.LoadersProps
import Verif.Implicit.Precond
import Verif.Implicit.PrecondProps
import Verif.Leaf.Common
import Verif.Leaf.CommonProps
import Verif.Leaf.Descent
import Verif.Leaf.DescentProps
import Verif.Leaf.InterpProps
import Verif.Leaf.InterpShapeProps
import Verif.Leaf.Predictors
import Verif.Leaf.PredictorsProps
import Verif.Leaf.ProductProps
import Verif.Physics.Annealing
import Verif.Physics.AnnealingProps
import Verif.Physics.Chaboche
import Verif.Physics.ChabocheProps
import Verif.Physics.Cohesive
import Verif.Physics.CohesiveProps
import Verif.Physics.Crystal
import Verif.Physics.CrystalLaws
import Verif.Physics.CrystalProps
import Verif.Physics.Deriv
import Verif.Physics.DocumentedProps
import Verif.Physics.Elasticity
import Verif.Physics.ElasticityLaws
import Verif.Physics.ElasticityProps
import Verif.Physics.Flow
import Verif.Physics.FlowLaws
import Verif.Physics.FlowProps
import Verif.Physics.FormulasProps
import Verif.Physics.FractureLaws
import Verif.Physics.KinReturn
import Verif.Physics.KinReturnProps
import Verif.Physics.KinVisco
import Verif.Physics.KinViscoProps
import Verif.Physics.Kwn
import Verif.Physics.KwnProps
import Verif.Physics.MaxwellProps
import Verif.Physics.Plasticity
import Verif.Physics.PlasticityLaws
import Verif.Physics.PlasticityProps
import Verif.Physics.PromotedProps
import Verif.Physics.RadialReturn
import Verif.Physics.RadialReturnProps
import Verif.Physics.RateProps
import Verif.Physics.ReturnMap
import Verif.Physics.ReturnMapLemmas
import Verif.Physics.ReturnMapProps
import Verif.Physics.StrainForm
import Verif.Physics.StrainFormProps
import Verif.Physics.StressControl
import Verif.Physics.StressControlProps
import Verif.Physics.TensorDeriv
import Verif.Physics.Transport
import Verif.Physics.TransportLemmas
import Verif.Physics.TransportProps
import Verif.Physics.ViscoReturn
import Verif.Physics.ViscoReturnProps
import Verif.Physics.Viscoelastic
import Verif.Physics.ViscoelasticProps
import Verif.Physics.Viscoplastic
import Verif.Physics.ViscoplasticLemmas
import Verif.Physics.ViscoplasticProps
import Verif.Pyzag.Adjoint
import Verif.Pyzag.AdjointProps
import Verif.Pyzag.Interface
import Verif.Pyzag.InterfaceLemmas
import Verif.Pyzag.InterfaceProps
import Verif.Pyzag.InterfaceSpec
import Verif.Pyzag.InterfaceStep
import Verif.Pyzag.InterfaceSum
import Verif.Pyzag.Params
import Verif.Pyzag.ParamsLemmas
import Verif.Pyzag.ParamsProps
import Verif.Region.AccumLemmas
import Verif.Region.BinaryLemmas
import Verif.Region.Check
import Verif.Region.Leaves
import Verif.Region.Lemmas
import Verif.Region.Model
import Verif.Region.Power
import Verif.Region.PowerLemmas
import Verif.Region.PowerProps
import Verif.Region.Props
import Verif.Region.ReduceLemmas
import Verif.Region.Seat
import Verif.Region.SeatProps
import Verif.Region.ShiftLemmas
import Verif.Region.Spec
import Verif.Region.SumLemmas
import Verif.Region.Table
import Verif.Region.TableProps
import Verif.Runtime.EnvFlag
import Verif.Runtime.Errors
import Verif.Runtime.ErrorsProps
import Verif.Runtime.Log
import Verif.Runtime.LogProps
import Verif.Runtime.Override
import Verif.Runtime.OverrideProps
import Verif.Runtime.Text
import Verif.Schema.Binding
import Verif.Schema.BindingProps
import Verif.Schema.Identity
import Verif.Schema.IdentityProps
import Verif.Schema.Lag
import Verif.Schema.LagProps
import Verif.Schema.LinComb
import Verif.Schema.LinCombProps
import Verif.Schema.Names
import Verif.Schema.NamesProps
import Verif.Schema.Rekey
import Verif.Schema.RekeyProps
import Verif.Schema.Settings
import Verif.Schema.SettingsLemmas
import Verif.Schema.SettingsProps
import Verif.Schema.Shared
import Verif.Schema.SharedProps
import Verif.Solver.Assembled
import Verif.Solver.AssembledProps
import Verif.Solver.BicgProps
import Verif.Solver.GmresLemmas
import Verif.Solver.GmresProps
import Verif.Solver.Krylov
import Verif.Solver.Newton
import Verif.Solver.NewtonProps
import Verif.Solver.Pack
import Verif.Solver.PackLemmas
import Verif.Solver.PackProps
import Verif.Solver.Schur
import Verif.Solver.SchurProps
import Verif.Solver.Substep
import Verif.Solver.SubstepLemmas
import Verif.Solver.SubstepProps
import Verif.Tensor.Crystal
import Verif.Tensor.CrystalProps
import Verif.Tensor.Leaves
import Verif.Tensor.LeavesProps
import Verif.Tensor.Model
import Verif.Tensor.PackProps
import Verif.Tensor.RotDerivProps
import Verif.Tensor.RotateProps
import Verif.Tensor.Rotation
import Verif.Tensor.RotationLemmas
import Verif.Tensor.RotationProps
import Verif.Tensor.RotationProps2
import Verif.Tensor.Symmetry
import Verif.Tensor.SymmetryProps
import Verif.Texture.IPFProps
import Verif.Texture.KernelProps
import Verif.Texture.Model
import Verif.Texture.OdfFigureProps
import Verif.Texture.OdfProps
import Verif.Texture.PoleProps
import Verif.Texture.ProjectionProps
