import Verif.Props.Numbers
import Verif.Props.Tables
import Verif.Props.Lists
import Verif.Props.Sorting
import Verif.Props.Strings
import Verif.Props.Decimal
import Verif.Props.Bytes
import Verif.Props.Interning
import Verif.Props.StringOps
import Verif.Props.Random
import Verif.Props.Compiler
import Verif.Props.Calls
import Verif.Props.Signatures
import Verif.Props.Dump
import Verif.Props.Objects
import Verif.Props.Can
import Verif.Model.Clone
import Verif.Props.Clone
import Verif.Model.Buffile
import Verif.Props.Buffile
import Verif.Props.TreeText
import Verif.Props.SigShow
import Verif.Props.Listing
import Verif.Props.Gc
import Verif.Props.Alloc
import Verif.Props.Syntax
import Verif.Props.CompileAll
import Verif.Props.Breaks
import Verif.Props.Files
import Verif.Props.Jit
import Verif.Props.JitIvars
import Verif.Props.Native
import Verif.Props.Continuations
import Verif.Props.StackScan
import Verif.Props.Load
import Verif.Props.Show
import Verif.Props.Greg
import Verif.Props.PotionActs
import Verif.Props.SigText
import Verif.Props.Agree
import Verif.Props.Builtins
import Verif.Props.CliRun
import Verif.Props.Double
import Verif.Props.Mixed
import Verif.Props.Send
import Verif.Props.Literal
import Verif.Props.Stmt
