import Verif.Props.Names
import Verif.Props.Hoist
import Verif.Props.Unpack
import Verif.Props.Unwind
import Verif.Props.Classes
import Verif.Props.IntOps
import Verif.Props.Seqs
import Verif.Props.TypeDomain
import Verif.Props.Alias
import Verif.Props.Imports
import Verif.Props.Deps
import Verif.Props.Body
import Verif.Props.Termination
import Verif.Props.SilNodes
import Verif.Props.Guards
import Verif.Props.WaitLevel
import Verif.Props.Args
import Verif.Props.Ops
import Verif.Props.Overrides
import Verif.Props.Service
import Verif.Props.History
import Verif.Props.Lsp
import Verif.Props.TestCheck
import Verif.Props.Errors
import Verif.Props.Generics
import Verif.Props.Pure
import Verif.Props.Match
import Verif.Props.Comp
import Verif.Props.For
import Verif.Props.Result
import Verif.Props.Ghost
import Verif.Props.Adt
import Verif.Props.Threads
import Verif.Props.IO
import Verif.Props.Cfg
import Verif.Props.Oblig
import Verif.Props.Dispatch
import Verif.Props.Defined
import Verif.Props.Families
import Verif.Props.Cex
import Verif.Props.Sif
import Verif.Props.Prelude
import Verif.Props.Exsures
import Verif.Props.Amounts
import Verif.Props.Members
import Verif.Props.Aggregates
import Verif.Props.Quant
import Verif.Props.Aug
import Verif.Props.Globals
import Verif.Props.Statics
import Verif.Props.Truth
import Verif.Props.Enums
import Verif.Props.Inline
import Verif.Props.Fields
import Verif.Props.Unions
import Verif.Props.Dataclasses
import Verif.Props.Stores
import Verif.Props.ClassMethods
import Verif.Props.Decreases
import Verif.Props.IsInstance
import Verif.Props.Scopes
import Verif.Props.Withs
import Verif.Props.Prob
import Verif.Props.SifMode
import Verif.Props.FieldTypes
import Verif.Props.Substs
import Verif.Props.ExprTypes
import Verif.Props.Defaults
import Verif.Props.Coverage
import Verif.Props.GlobalNames
import Verif.Props.MethodVars
import Verif.Props.ThreadArgs
import Verif.Props.AutoOblig
import Verif.Props.Placement
import Verif.Props.Floats
import Verif.Props.Creates
import Verif.Props.Poss
import Verif.Props.Annots
import Verif.Props.ImportTargets
import Verif.Props.ImportNames
import Verif.Props.Packages
import Verif.Props.Calls
import Verif.Props.Receivers
import Verif.Props.ClassDefs
import Verif.Props.LoopTypes
import Verif.Props.Previous
