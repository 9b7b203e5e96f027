import Verif.Props.Varint
import Verif.Props.Bits
import Verif.Props.Xil
import Verif.Props.Algo
import Verif.Props.Copy
import Verif.Props.CStr
import Verif.Props.Heap
import Verif.Props.Value
import Verif.Props.Table
import Verif.Props.Guid
import Verif.Props.Fold
import Verif.Props.Numeric
import Verif.Props.Lex
import Verif.Props.Parse
import Verif.Props.Stmt
import Verif.Props.Codegen
import Verif.Props.SVector
import Verif.Props.XHeap
import Verif.Props.RowHeap
import Verif.Props.Respool
import Verif.Props.BitArray
import Verif.Props.LrTree
import Verif.Props.Access
import Verif.Props.Dispatch
import Verif.Props.Body
import Verif.Props.Block
import Verif.Props.Arr
import Verif.Props.Sync
import Verif.Props.Intern
import Verif.Props.Layout
import Verif.Props.Regions
import Verif.Model.Expr
import Verif.Spec.Expr
import Verif.Proof.Expr
import Verif.Proof.Expr2
import Verif.Proof.Expr3
import Verif.Proof.Expr4
import Verif.Proof.Expr5
import Verif.Proof.Expr6
import Verif.Props.Expr
import Verif.Model.Overload
import Verif.Spec.Overload
import Verif.Proof.Overload
import Verif.Proof.Overload2
import Verif.Props.Overload
import Verif.Model.Fields
import Verif.Spec.Fields
import Verif.Proof.Fields
import Verif.Proof.Fields2
import Verif.Proof.Fields3
import Verif.Props.Fields
import Verif.Model.Decl
import Verif.Spec.Decl
import Verif.Proof.Decl
import Verif.Proof.Decl2
import Verif.Proof.Decl3
import Verif.Props.Decl
import Verif.Model.Enums
import Verif.Spec.Enums
import Verif.Proof.Enums
import Verif.Props.Enums
import Verif.Model.Asm
import Verif.Spec.Asm
import Verif.Proof.Asm
import Verif.Props.Asm
import Verif.Spec.AsmEnd
import Verif.Proof.AsmEnd
import Verif.Proof.AsmOk
import Verif.Proof.AsmRun
import Verif.Props.AsmEnd
import Verif.Model.Names
import Verif.Spec.Names
import Verif.Proof.Names
import Verif.Proof.NamesOk
import Verif.Props.Names
import Verif.Model.Host
import Verif.Model.Rt
import Verif.Spec.Host
import Verif.Spec.Rt
import Verif.Proof.Host
import Verif.Proof.Rt
import Verif.Props.Host
import Verif.Props.Rt
import Verif.Model.Mref
import Verif.Spec.Mref
import Verif.Proof.Mref
import Verif.Props.Mref
import Verif.Model.Gram
import Verif.Model.GramCs
import Verif.Spec.Gram
import Verif.Proof.Gram1
import Verif.Proof.Gram2
import Verif.Proof.Gram3
import Verif.Proof.Gram4
import Verif.Proof.Gram5
import Verif.Proof.Gram6
import Verif.Proof.Gram7
import Verif.Props.Gram
import Verif.Model.Anl
import Verif.Spec.Anl
import Verif.Proof.Anl
import Verif.Props.Anl
import Verif.Model.Elems
import Verif.Model.NodesCs
import Verif.Model.Nodes
import Verif.Spec.Elems
import Verif.Spec.Nodes
import Verif.Proof.Elems
import Verif.Proof.Nodes
import Verif.Props.Elems
import Verif.Props.Nodes
import Verif.Model.Paths
import Verif.Model.Build
import Verif.Model.Wild
import Verif.Spec.Paths
import Verif.Spec.Build
import Verif.Spec.Wild
import Verif.Proof.Paths
import Verif.Proof.Build
import Verif.Proof.Wild
import Verif.Props.Paths
import Verif.Props.Build
import Verif.Props.Wild
import Verif.Model.Cmd
import Verif.Model.Session
import Verif.Spec.Cmd
import Verif.Spec.Session
import Verif.Proof.Cmd
import Verif.Proof.Session
import Verif.Props.Cmd
import Verif.Props.Session
import Verif.Model.Flow
import Verif.Spec.Flow
import Verif.Proof.Flow
import Verif.Proof.Flow2
import Verif.Proof.Flow3
import Verif.Proof.Flow4
import Verif.Props.Flow
import Verif.Model.Queue
import Verif.Spec.Queue
import Verif.Proof.Queue
import Verif.Props.Queue
import Verif.Model.Scope
import Verif.Model.Place
import Verif.Model.Classes
import Verif.Model.Member
import Verif.Spec.Scope
import Verif.Spec.Place
import Verif.Spec.Classes
import Verif.Spec.Member
import Verif.Proof.Scope
import Verif.Proof.Place
import Verif.Proof.Classes
import Verif.Proof.Member
import Verif.Props.Scope
import Verif.Props.Place
import Verif.Props.Classes
import Verif.Props.Member
import Verif.Model.Try
import Verif.Spec.Try
import Verif.Proof.Try
import Verif.Proof.TrySim
import Verif.Proof.TryMain
import Verif.Proof.TryRun
import Verif.Props.Try
import Verif.Props.Init
import Verif.Props.Refs
import Verif.Props.MathLib
import Verif.Props.Console
import Verif.Props.Calls
import Verif.Props.Structs
import Verif.Props.Sections
import Verif.Props.Ctors
import Verif.Props.ConstExec
import Verif.Props.Consts
import Verif.Props.DotNames
import Verif.Props.Pack
import Verif.Props.Attrs
import Verif.Props.Subst
import Verif.Props.Where
import Verif.Props.Ready
import Verif.Props.Vcall
import Verif.Props.Mval
import Verif.Props.Links
import Verif.Props.Stash
import Verif.Props.Loaded
import Verif.Props.Indexers
import Verif.Props.Gvirt
import Verif.Props.Giface
import Verif.Props.Tuples
import Verif.Props.Pools
import Verif.Props.Zips
import Verif.Props.Codepos
import Verif.Props.Zeros
import Verif.Props.Identity
import Verif.Props.TypeNames
