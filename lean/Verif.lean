import Verif.Model.Xml
import Verif.Model.Schema
import Verif.Model.Ref
import Verif.Model.Calculator
import Verif.Model.NodeAdd
import Verif.Model.NodeSub
import Verif.Spec.Demo
import Verif.Spec.Config
import Verif.Spec.Check
import Verif.Proof.Pairing
import Verif.Proof.Compare
import Verif.Proof.Laws
import Verif.Props.Compare
import Verif.Spec.Sum
import Verif.Spec.Deep
import Verif.Proof.Insert
import Verif.Proof.Step
import Verif.Proof.Attrs
import Verif.Proof.Frame
import Verif.Proof.Local
import Verif.Proof.Keys
import Verif.Proof.At
import Verif.Proof.Result
import Verif.Props.Sum
import Verif.Spec.Delta
import Verif.Proof.Ref
import Verif.Proof.Kids
import Verif.Proof.Unique
import Verif.Proof.Applied
import Verif.Proof.Fault
import Verif.Props.Delta
import Verif.Model.RunningConfig
import Verif.Spec.Running
import Verif.Proof.ListDiff
import Verif.Proof.Orderless
import Verif.Proof.Reorder
import Verif.Proof.Commands
import Verif.Props.Running
import Verif.Spec.Render
import Verif.Spec.Paste
import Verif.Proof.Parse
import Verif.Proof.CliText
import Verif.Proof.CliTree
import Verif.Proof.Paste
import Verif.Proof.PasteDiff
import Verif.Proof.PasteText
import Verif.Props.Text
import Verif.Proof.Order
import Verif.Proof.Level
import Verif.Proof.LevelAdd
import Verif.Spec.Settle
import Verif.Proof.Settle
import Verif.Proof.Settled
import Verif.Proof.Diff
import Verif.Spec.RoundTrip
import Verif.Proof.SubCells
import Verif.Proof.SubParts
import Verif.Proof.Marker
import Verif.Proof.NewKid
import Verif.Proof.SubLevel
import Verif.Proof.SubBoth
import Verif.Proof.SubMain
import Verif.Model.Config
import Verif.Spec.Shape
import Verif.Spec.Trim
import Verif.Spec.Transition
import Verif.Proof.Shape
import Verif.Proof.ShapeStrip
import Verif.Proof.Trim
import Verif.Proof.ConfigLaws
import Verif.Proof.Strip
import Verif.Spec.CheckTransition
import Verif.Props.Trim
import Verif.Props.RoundTrip
import Verif.Spec.Merge
import Verif.Proof.Merge
import Verif.Props.Merge
import Verif.Spec.Tree
import Verif.Proof.Tree
import Verif.Props.Tree
import Verif.Spec.Insert
import Verif.Proof.InsertAt
import Verif.Proof.Positioned
import Verif.Props.Insert
import Verif.Model.Tags
import Verif.Model.Store
import Verif.Spec.Tags
import Verif.Spec.Store
import Verif.Proof.Tags
import Verif.Proof.Store
import Verif.Props.Tags
import Verif.Props.Store
import Verif.Model.Download
import Verif.Spec.Download
import Verif.Proof.Download
import Verif.Props.Download
import Verif.Spec.Ref
import Verif.Proof.InstId
import Verif.Proof.RefValue
import Verif.Props.Ref
import Verif.Model.ModelDiff
import Verif.Spec.ModelDiff
import Verif.Proof.ModelDiff
import Verif.Proof.ModelMarks
import Verif.Proof.ModelView
import Verif.Props.ModelDiff
import Verif.Model.Context
import Verif.Spec.Context
import Verif.Proof.Context
import Verif.Props.Context
import Verif.Model.Identity
import Verif.Spec.Identity
import Verif.Proof.Identity
import Verif.Props.Identity
import Verif.Spec.Replace
import Verif.Proof.Replace
import Verif.Props.Replace
import Verif.Spec.Prefer
import Verif.Proof.Prefer
import Verif.Props.Prefer
import Verif.Spec.Validate
import Verif.Proof.Validate
import Verif.Props.Validate
import Verif.Spec.KeyOrder
import Verif.Proof.KeyOrder
import Verif.Props.KeyOrder
import Verif.Model.XPath
import Verif.Model.ReplaceXpath
import Verif.Spec.Position
import Verif.Spec.XPath
import Verif.Proof.XPath
import Verif.Proof.XPathNode
import Verif.Proof.ReplaceXpath
import Verif.Props.XPath
import Verif.Model.Compat
import Verif.Spec.Compat
import Verif.Proof.Compat
import Verif.Proof.CompatSeen
import Verif.Proof.CompatHost
import Verif.Props.Compat
import Verif.Model.Compile
import Verif.Spec.Compile
import Verif.Proof.Compile
import Verif.Proof.CompileAttrs
import Verif.Proof.CompileTree
import Verif.Props.Compile
import Verif.Spec.Printed
import Verif.Proof.Printed
import Verif.Proof.PrintedPaths
import Verif.Props.Printed
import Verif.Model.Send
import Verif.Spec.Send
import Verif.Props.Send
import Verif.Model.Statement
import Verif.Spec.Statement
import Verif.Proof.Statement
import Verif.Props.Statement
import Verif.Model.Show
import Verif.Spec.Show
import Verif.Proof.Show
import Verif.Proof.ShowRead
import Verif.Proof.ShowDiff
import Verif.Props.Show
import Verif.Model.Offer
import Verif.Spec.Offer
import Verif.Proof.Offer
import Verif.Props.Offer
import Verif.Model.Cache
import Verif.Spec.Cache
import Verif.Proof.Cache
import Verif.Props.Cache
import Verif.Model.Objects
import Verif.Spec.Objects
import Verif.Proof.Objects
import Verif.Props.Objects
import Verif.Spec.Lines
import Verif.Proof.Lines
import Verif.Props.Lines
import Verif.Model.Types
import Verif.Spec.Types
import Verif.Proof.Types
import Verif.Props.Types
import Verif.Spec.StandIn
import Verif.Proof.StandIn
import Verif.Props.StandIn
import Verif.Model.DeltaObj
import Verif.Spec.DeltaObj
import Verif.Props.DeltaObj
import Verif.Spec.Loose
import Verif.Spec.CheckLoose
import Verif.Proof.Loose
import Verif.Proof.LooseTrim
import Verif.Proof.Exact
import Verif.Props.Exact
import Verif.Spec.Choice
import Verif.Proof.Choice
import Verif.Spec.CheckChoice
import Verif.Props.Choice
import Verif.Props.Regex
import Verif.Props.YangParse
import Verif.Props.Refused
import Verif.Spec.InstId
import Verif.Spec.CheckInstId
import Verif.Proof.InstConvert
import Verif.Spec.Regex
import Verif.Proof.Regex
import Verif.Model.YangParse
import Verif.Spec.YangParse
import Verif.Proof.YangParse
import Verif.Spec.Refused
import Verif.Proof.RefusedPlace
import Verif.Proof.RefusedEcho
import Verif.Proof.Refused
import Verif.Proof.KeyText
import Verif.Spec.CheckKey
import Verif.Spec.Instance
import Verif.Spec.Yang
import Verif.Proof.Pruned
import Verif.Proof.Yang
import Verif.Proof.YangSimple
import Verif.Proof.CheckYang
import Verif.Props.Yang
import Verif.Spec.PyText
import Verif.Proof.PyText
import Verif.Spec.KeyNames
import Verif.Proof.KeyNames
import Verif.Props.KeyNames
import Verif.Spec.Meaning
import Verif.Proof.IdentityValue
import Verif.Proof.Meaning
import Verif.Props.Meaning
import Verif.Spec.Server
import Verif.Proof.Server
import Verif.Proof.ServerTag
import Verif.Proof.ServerLevel
import Verif.Proof.ServerMain
import Verif.Props.Server
import Verif.Spec.Overwrite
import Verif.Proof.Overwrite
import Verif.Proof.OverwriteTable
import Verif.Props.Overwrite
import Verif.Proof.PasteTable
import Verif.Spec.Cases
import Verif.Proof.CasesPath
import Verif.Proof.Cases
import Verif.Proof.CasesDelta
import Verif.Props.Cases
import Verif.Spec.SameNodes
import Verif.Proof.SameNodes
import Verif.Proof.ServeFlat
import Verif.Proof.ServeOrder
import Verif.Proof.ServeShuffle
import Verif.Props.SameNodes
import Verif.Spec.Vocabulary
import Verif.Proof.Vocabulary
import Verif.Props.Vocabulary
import Verif.Spec.Explicit
import Verif.Proof.Explicit
import Verif.Proof.ExplicitMeaning
import Verif.Proof.ExplicitShed
import Verif.Props.Explicit
import Verif.Proof.ExplicitCases
import Verif.Props.Reported
import Verif.Props.Kinds
import Verif.Spec.Roots
import Verif.Model.Roots
import Verif.Proof.Places
import Verif.Proof.Roots
import Verif.Props.Roots
import Verif.Spec.Shared
import Verif.Model.Shared
import Verif.Proof.Shared
import Verif.Props.Shared
import Verif.Spec.MergeLaws
import Verif.Proof.MergeLaws
import Verif.Proof.SumClosed
import Verif.Props.MergeLaws
import Verif.Model.SchemaPath
import Verif.Spec.SchemaPath
import Verif.Proof.SchemaPath
import Verif.Props.SchemaPath
import Verif.Spec.Minimal
import Verif.Proof.Minimal
import Verif.Props.Minimal
import Verif.Spec.Keeps
import Verif.Proof.Keeps
import Verif.Props.Keeps
import Verif.Proof.Quotes
import Verif.Props.Quotes
import Verif.Spec.Apart
import Verif.Proof.Apart
import Verif.Proof.Commute
import Verif.Props.Apart
import Verif.Spec.ThreeWay
import Verif.Proof.ThreeWay
import Verif.Props.ThreeWay
import Verif.Proof.MergeDeep
import Verif.Props.MergeDeep
import Verif.Proof.MergeServer
import Verif.Props.MergeServer
import Verif.Model.NodeReport
import Verif.Spec.NodeReport
import Verif.Proof.NodeReport
import Verif.Props.NodeReport
import Verif.Model.Find
import Verif.Spec.Find
import Verif.Proof.Find
import Verif.Props.Find
import Verif.Model.DiffObject
import Verif.Spec.DiffObject
import Verif.Proof.DiffObject
import Verif.Props.DiffObject
import Verif.Spec.Hoist
import Verif.Proof.Hoist
import Verif.Props.Hoist
import Verif.Spec.Layout
import Verif.Proof.Layout
import Verif.Proof.Trailing
import Verif.Props.Layout
import Verif.Spec.Width
import Verif.Proof.Width
import Verif.Props.Width
import Verif.Proof.ReplaceLines
import Verif.Props.ReplaceLines
import Verif.Axioms
