import Verif.Props.Layout
import Verif.Props.Indexing
import Verif.Props.Reshape
import Verif.Props.Assign
import Verif.Props.Construct
import Verif.Props.Lifetime
import Verif.Props.Cat
import Verif.Props.Seq
import Verif.Props.Product
import Verif.Props.Numeric
import Verif.Props.Random
import Verif.Props.IO
import Verif.Props.ConstVector
import Verif.Props.Column
import Verif.Props.DataFrame
import Verif.Props.ReadWrite
import Verif.Props.Convert
import Verif.Props.Alloc
import Verif.Spec.Fits
import Verif.Lemmas.Wrap
import Verif.Lemmas.WrapRun
import Verif.Props.Wrap
import Verif.Model.Proxy
import Verif.Spec.Proxy
import Verif.Lemmas.Proxy
import Verif.Props.Proxy
import Verif.Model.Borrow
import Verif.Spec.Borrow
import Verif.Lemmas.Borrow
import Verif.Props.Borrow
import Verif.Model.Stored
import Verif.Spec.Stored
import Verif.Lemmas.Stored
import Verif.Props.Stored
import Verif.Model.IterArith
import Verif.Lemmas.IterArith
import Verif.Props.IterArith
import Verif.Spec.Types
import Verif.Lemmas.Types
import Verif.Props.Types
import Verif.Model.ToStrided
import Verif.Props.ToStrided
import Verif.Model.Pdf
import Verif.Props.Pdf
import Verif.Spec.Double
import Verif.Lemmas.Double
import Verif.Model.Sample
import Verif.Props.Sample
import Verif.Model.ExprDrop
import Verif.Spec.ExprDrop
import Verif.Props.ExprDrop
import Verif.Model.Program
import Verif.Spec.Program
import Verif.Lemmas.Program
import Verif.Props.Program
import Verif.Model.IterPair
import Verif.Spec.IterPair
import Verif.Props.IterPair
import Verif.Model.Throwing
import Verif.Spec.Throwing
import Verif.Spec.Sound
import Verif.Lemmas.Sound
import Verif.Props.Throwing
import Verif.Props.Sound
import Verif.Model.DebugThrows
import Verif.Spec.DebugThrows
import Verif.Lemmas.Throws
import Verif.Props.DebugThrows
import Verif.Model.Rounded
import Verif.Spec.Rounded
import Verif.Lemmas.Rounded
import Verif.Props.Rounded
import Verif.Spec.Program64
import Verif.Lemmas.Program64
import Verif.Props.Program64
import Verif.Model.Concurrent
import Verif.Spec.Concurrent
import Verif.Lemmas.Concurrent
import Verif.Lemmas.Threads
import Verif.Props.Concurrent
import Verif.Model.Text
import Verif.Spec.Text
import Verif.Lemmas.Text
import Verif.Props.Text
import Verif.Props.Calls
import Verif.Props.Adaptive
import Verif.Props.NoMemory
import Verif.Spec.SafeProg
import Verif.Props.SafeProg
import Verif.Spec.Whole64
import Verif.Lemmas.Whole64
import Verif.Props.Whole64
import Verif.Model.ColumnHeap
import Verif.Spec.ColumnHeap
import Verif.Lemmas.ColumnHeap
import Verif.Lemmas.ColumnFrames
import Verif.Lemmas.ColumnAssign
import Verif.Lemmas.ColumnProg
import Verif.Lemmas.ColumnStep
import Verif.Props.ColumnHeap
import Verif.Props.Views
import Verif.Props.ViewsSound
import Verif.Model.ConstVectorThreads
import Verif.Spec.ConstVectorThreads
import Verif.Lemmas.ConstVectorThreads
import Verif.Props.ConstVectorThreads
import Verif.Model.ColumnPtr
import Verif.Spec.ColumnPtr
import Verif.Lemmas.ColumnGrow
import Verif.Lemmas.ColumnFlow
import Verif.Lemmas.ColumnPtr
import Verif.Props.ColumnPtr
import Verif.Model.Fallible
import Verif.Spec.Fallible
import Verif.Lemmas.Fallible
import Verif.Props.Fallible
import Verif.Model.Scopes
import Verif.Spec.Scopes
import Verif.Lemmas.Scopes
import Verif.Props.Scopes
import Verif.Model.Blocks
import Verif.Spec.Blocks
import Verif.Lemmas.Blocks
import Verif.Lemmas.Ledger
import Verif.Lemmas.BlockStmts
import Verif.Lemmas.BlockSteps
import Verif.Lemmas.BlockNew
import Verif.Lemmas.BlockSet
import Verif.Lemmas.BlockMoves
import Verif.Lemmas.BlockCalm
import Verif.Lemmas.BlockProgs
import Verif.Props.Blocks
import Verif.Spec.SafeBlocks
import Verif.Lemmas.SafeBlocks
import Verif.Lemmas.SafeBlockSteps
import Verif.Lemmas.SafeBlockNew
import Verif.Lemmas.SafeBlockStmts
import Verif.Lemmas.SafeBlockProgs
import Verif.Props.SafeBlocks
import Verif.Spec.Blocks64
import Verif.Lemmas.Blocks64
import Verif.Lemmas.BlockSteps64
import Verif.Lemmas.BlockProgs64
import Verif.Lemmas.Modest64
import Verif.Props.Blocks64
import Verif.Model.Levels
import Verif.Lemmas.Levels
import Verif.Lemmas.LevelsSame
import Verif.Props.Levels
import Verif.Model.BlockThrows
import Verif.Spec.BlockThrows
import Verif.Lemmas.BlockThrows
import Verif.Lemmas.BlockThrowsProgs
import Verif.Lemmas.BlockThrowsRuns
import Verif.Props.BlockThrows
import Verif.Props.TextHex
import Verif.Props.NumericInt
import Verif.Props.CallsPure
import Verif.Model.Regions
import Verif.Spec.Regions
import Verif.Props.Regions
import Verif.Props.ColumnDouble
import Verif.Props.RoundedFinite
