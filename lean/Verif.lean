import Verif.IntMath.Props
import Verif.AugOps.Props
import Verif.Loops.Props
import Verif.Slices.Props
import Verif.Views.Props
import Verif.Names.Props
import Verif.Exprs.Props
import Verif.Types.Props
import Verif.Simplify.Props
import Verif.Flow.Props
import Verif.Calls.Props
import Verif.Ast.Props
import Verif.Text.Props
import Verif.Locks.Props
import Verif.Build.Props
import Verif.Cache.Props
import Verif.Containers.Props
import Verif.Memory.Props
import Verif.Vectors.Props
import Verif.Assigns.Props
import Verif.Wrapper.Props
import Verif.Aliases.Props
import Verif.Inline.Props
import Verif.Floats.Props
import Verif.Imports.Props
import Verif.Lifetimes.Props
import Verif.Layout.Props
import Verif.Optional.Props
import Verif.Scalars.Props
import Verif.Infer.Props
import Verif.Stubs.Props
import Verif.Operands.Props
import Verif.Hoist.Props
import Verif.Fills.Props
import Verif.Funcs.Props
import Verif.Strings.Props
import Verif.Recursion.Props
import Verif.Complex.Props
import Verif.Tests.Props
import Verif.Whole.Props
import Verif.Clean.Props
import Verif.Params.Props
import Verif.Iterate.Props
import Verif.Norm.Props
import Verif.Operators.Props
import Verif.Repeats.Props
import Verif.Link.Props
import Verif.Omp.Props
import Verif.Comments.Props
import Verif.Globals.Props
import Verif.BindC.Props
import Verif.Comps.Props
import Verif.Returns.Props
import Verif.Paths.Props
import Verif.Nested.Props
import Verif.Instances.Props
import Verif.TypeTests.Props
import Verif.PyOut.Props
import Verif.Masks.Props
import Verif.Source.Props
import Verif.Dot.Props
import Verif.Finals.Props
import Verif.Session.Props
import Verif.Display.Props
import Verif.Literals.Props
import Verif.Config.Props
import Verif.ConfigCheck.Props
import Verif.Locate.Props
import Verif.Captured.Props
import Verif.CTypes.Props
import Verif.Lambdify.Props
import Verif.Sizes.Props
import Verif.Symbols.Props
import Verif.ArrayCalls.Props
