import Verif.Asm.Props
import Verif.Asm.PropsTable
import Verif.Branch.Props
import Verif.Collector.Props
import Verif.DataExpander.Props
import Verif.Derive.Props
import Verif.Heap2Stack.Props
import Verif.Import.Props
import Verif.Integer.Props
import Verif.Interning.Props
import Verif.Jit.Props
import Verif.KindInfer.Props
import Verif.KindUnify.Props
import Verif.Lexer.Props
import Verif.MainInit.Props
import Verif.MemLayout.Props
import Verif.Mono.Props
import Verif.Generations.Props
import Verif.Elf.Props
import Verif.Iter.Props
import Verif.Macro.Props
import Verif.SexpData.Props
import Verif.Rw.Props
import Verif.SelfLexer.Props
import Verif.SelfParser.Props
import Verif.SelfPath.Props
import Verif.Obj.Props
import Verif.Parallel.Props
import Verif.PatMatch.Props
import Verif.PatMatch.PropsExamples
import Verif.Path.Props
import Verif.Preprocess.Props
import Verif.RbMap.Props
import Verif.RobinHood.Props
import Verif.Scope.Props
import Verif.StackFrame.Props
import Verif.StackMachine.Props
import Verif.Str.Props
import Verif.TopoSort.Props
import Verif.TypeUnify.Props
import Verif.Utf8.Props
import Verif.StrOps.Props
import Verif.Vector.Props
import Verif.FilePath.Props
import Verif.Hamt.Props
import Verif.BTree.Props
import Verif.XxHash.Props
import Verif.Parser.Props
import Verif.Hash.Props
import Verif.Arith.Props
import Verif.Closure.Props
import Verif.Codegen.Props
import Verif.Inline.Props
import Verif.Infer.Props
import Verif.Instances.Props
