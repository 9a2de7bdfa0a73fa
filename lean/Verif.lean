import Verif.Lemmas.Reserved
import Verif.Lemmas.PathText
import Verif.Lemmas.Text
import Verif.Spec.Text
import Verif.Model.Py
import Verif.Model.Types
import Verif.Model.Svd
import Verif.Model.Proc
import Verif.Model.DecEq
import Verif.Model.Enum
import Verif.Model.Dim
import Verif.Model.Elem
import Verif.Model.Inherit
import Verif.Model.Finalize
import Verif.Model.Graph
import Verif.Model.Resolver
import Verif.Model.Pipeline
import Verif.Model.Parse
import Verif.Model.Serialize
import Verif.Model.MapM
import Verif.Model.Convert
import Verif.Model.Load
import Verif.Spec.Enum
import Verif.Spec.Lookup
import Verif.Spec.Origin
import Verif.Spec.Tree
import Verif.Lemmas.Basic
import Verif.Lemmas.Digits
import Verif.Lemmas.EnumCont
import Verif.Lemmas.EnumConv
import Verif.Lemmas.EnumCore
import Verif.Lemmas.EnumLit
import Verif.Lemmas.EnumVal
import Verif.Lemmas.Fin
import Verif.Lemmas.FinState
import Verif.Lemmas.InvRun
import Verif.Lemmas.InvStep
import Verif.Lemmas.Lookup
import Verif.Lemmas.Made
import Verif.Lemmas.Nodes
import Verif.Lemmas.WF
import Verif.Lemmas.Inherit
import Verif.Lemmas.FinField
import Verif.Lemmas.EnumAccept
import Verif.Lemmas.EnumDev
import Verif.Props.Sample
import Verif.Props.EnumValues
import Verif.Props.Fields
import Verif.Spec.Layout
import Verif.Lemmas.TreeInv
import Verif.Props.Layout
import Verif.Spec.Derive
import Verif.Lemmas.DimInv
import Verif.Lemmas.MadeInv
import Verif.Lemmas.OriginInv
import Verif.Spec.Alternate
import Verif.Lemmas.Sat
import Verif.Lemmas.Alt
import Verif.Lemmas.ResolveSat
import Verif.Props.Derive
import Verif.Spec.Trim
import Verif.Lemmas.Overlap
import Verif.Lemmas.POverlap
import Verif.Lemmas.FinErr
import Verif.Lemmas.TrimInv
import Verif.Lemmas.FinWarn
import Verif.Props.Warnings
import Verif.Spec.Misc
import Verif.Props.Map
import Verif.Props.Misc
import Verif.Props.Exceptions
import Verif.Spec.Xml
import Verif.Lemmas.XmlInt
import Verif.Lemmas.RoundTrip
import Verif.Lemmas.XmlView
import Verif.Lemmas.XmlReads
import Verif.Props.Xml
import Verif.Spec.Literal
import Verif.Lemmas.Literal
import Verif.Spec.Says
import Verif.Lemmas.Says
import Verif.Props.Says
import Verif.Spec.Convert
import Verif.Props.Convert
import Verif.Lemmas.Cover
import Verif.Spec.Dim
import Verif.Props.Dim
import Verif.Spec.Resolve
import Verif.Lemmas.Acyclic
import Verif.Lemmas.Search
import Verif.Props.Resolve
import Verif.Lemmas.Sizes
import Verif.Props.Sizes
import Verif.Props.Order
import Verif.Lemmas.Flat
import Verif.Lemmas.FlatOrder
import Verif.Lemmas.GraphEq
import Verif.Lemmas.Shape
import Verif.Spec.Build
import Verif.Lemmas.ShapeRun
import Verif.Lemmas.Heads
import Verif.Lemmas.Traverse
import Verif.Lemmas.FinFlat
import Verif.Lemmas.FinBuild
import Verif.Lemmas.FinTotal
import Verif.Lemmas.AgainEnum
import Verif.Lemmas.AgainFix
import Verif.Lemmas.FinStep
import Verif.Lemmas.FlatResolve
import Verif.Lemmas.Fuel
import Verif.Props.Build
import Verif.Spec.Again
import Verif.Lemmas.AgainTree
import Verif.Lemmas.AgainFin
import Verif.Lemmas.AgainDev
import Verif.Props.Again
import Verif.Spec.Content
import Verif.Lemmas.Lab
import Verif.Lemmas.LabPh
import Verif.Lemmas.LabBuild
import Verif.Lemmas.Rep
import Verif.Lemmas.LabAdopt
import Verif.Lemmas.LabFinish
import Verif.Lemmas.LabRun
import Verif.Spec.Elements
import Verif.Lemmas.Complete
import Verif.Lemmas.LabKinds
import Verif.Lemmas.LabFinal
import Verif.Lemmas.LabVisit
import Verif.Lemmas.Paths
import Verif.Lemmas.Exact
import Verif.Props.Content
import Verif.Props.DimDevice
import Verif.Lemmas.Ends
import Verif.Props.Ends
import Verif.Spec.Validate
import Verif.Lemmas.ValField
import Verif.Lemmas.ValRC
import Verif.Lemmas.ValElem
import Verif.Lemmas.ValPeriph
import Verif.Props.Validate
import Verif.Spec.Accept
import Verif.Lemmas.Accept
import Verif.Props.Accept
import Verif.Spec.Remarks
import Verif.Lemmas.Remarks
import Verif.Props.Remarks
import Verif.Spec.Follow
import Verif.Lemmas.Fol
import Verif.Lemmas.FolAdopt
import Verif.Lemmas.FolFinish
import Verif.Lemmas.FolStep
import Verif.Lemmas.FolList
import Verif.Lemmas.FolFind
import Verif.Lemmas.FolPhase
import Verif.Lemmas.FolSort
import Verif.Lemmas.FolRound
import Verif.Lemmas.FolInit
import Verif.Lemmas.FolCheck
import Verif.Props.Follow
import Verif.Lemmas.RepTotal
import Verif.Lemmas.UpdTotal
import Verif.Lemmas.Held
import Verif.Lemmas.HeldRun
import Verif.Lemmas.HeldInit
import Verif.Lemmas.Escape
import Verif.Lemmas.EscapeFin
import Verif.Props.Escape
import Verif.Spec.Quiet
import Verif.Lemmas.Kin
import Verif.Lemmas.Neat
import Verif.Lemmas.Single
import Verif.Spec.Resolvable
import Verif.Lemmas.Clear
import Verif.Lemmas.ResTotal
import Verif.Lemmas.Tidy
import Verif.Lemmas.FinGo
import Verif.Lemmas.FinRun
import Verif.Props.AcceptDerived
import Verif.Props.ContentDerived
import Verif.Props.ContentFull
import Verif.Props.Endless
import Verif.Spec.EnumLit
import Verif.Spec.Container
import Verif.Spec.DimText
import Verif.Lemmas.EnumReads
import Verif.Lemmas.EnumExact
import Verif.Lemmas.DimText
import Verif.Lemmas.BuildNeed
import Verif.Props.EnumExact
import Verif.Props.DimElements
import Verif.Props.AcceptExact
import Verif.Model.Heap
import Verif.Lemmas.Shared
import Verif.Lemmas.SharedFin
import Verif.Lemmas.SharedStep
import Verif.Lemmas.SharedInh
import Verif.Lemmas.SharedEnd
import Verif.Lemmas.Share
import Verif.Lemmas.ShareRun
import Verif.Lemmas.ShareCoherent
import Verif.Lemmas.ShareClass
import Verif.Spec.Unambiguous
import Verif.Props.Shared
import Verif.Spec.Notes
import Verif.Lemmas.NotesEnum
import Verif.Lemmas.NotesDecl
import Verif.Lemmas.Hush
import Verif.Lemmas.NotesRun
import Verif.Lemmas.NotesFin
import Verif.Lemmas.ValQuiet
import Verif.Props.Notes
import Verif.Spec.Reorder
import Verif.Lemmas.ReorderFin
import Verif.Lemmas.ReorderBuilt
import Verif.Props.Reorder
import Verif.Props.Determined
import Verif.Spec.Change
import Verif.Spec.Notation
import Verif.Lemmas.ChangeGraph
import Verif.Lemmas.ChangeRes
import Verif.Lemmas.ChangeFin
import Verif.Lemmas.ChangeVal
import Verif.Lemmas.ChangeHeap
import Verif.Props.Change
import Verif.Spec.Extend
import Verif.Lemmas.Embed
import Verif.Lemmas.EmbedReorder
import Verif.Lemmas.ExtendFin
import Verif.Props.Extend
import Verif.Spec.Unroll
import Verif.Lemmas.UnrollBuilt
import Verif.Props.Unroll
import Verif.Spec.Dangling
import Verif.Props.Dangling
import Verif.Spec.Inline
import Verif.Lemmas.Inline
import Verif.Lemmas.InlineTree
import Verif.Props.Inline
import Verif.Model.Log
import Verif.Spec.Log
import Verif.Lemmas.LogRun
import Verif.Lemmas.LogText
import Verif.Props.Log
import Verif.Props.Rewrite
import Verif.Spec.Schema
import Verif.Lemmas.Schema
import Verif.Lemmas.SchemaConv
import Verif.Props.Schema
import Verif.Spec.SchemaRead
import Verif.Lemmas.SchemaRead
import Verif.Props.SchemaRead
