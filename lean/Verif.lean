import Verif.Base.Decimal
import Verif.Path.Props
import Verif.Base64.Model
import Verif.Base64.Props
import Verif.Blob.Props
import Verif.Val.Basic
import Verif.Val.Ops
import Verif.Val.OpsLemmas
import Verif.Val.PathSpec
import Verif.Val.PathProps
import Verif.Val.RefProps
import Verif.Val.EraseProps
import Verif.Val.Compare
import Verif.Val.CompareProps
import Verif.Heap.Model
import Verif.Heap.Inv
import Verif.Heap.Copy
import Verif.Heap.Props
import Verif.Heap.ReadBack
import Verif.Event.Model
import Verif.Event.Spec
import Verif.Event.Props
import Verif.Event.EqProps
import Verif.Event.MsgPack
import Verif.IO.Stream
import Verif.IO.StreamProps
import Verif.Misc.ParseBool
import Verif.Json.Tok
import Verif.Json.Driver
import Verif.Json.Safe
import Verif.Json.Shape
import Verif.Json.Step
import Verif.Json.Grow
import Verif.Json.DriverInv
import Verif.Json.EmitVal
import Verif.Json.RoundSpec
import Verif.Json.RoundTrip
import Verif.Json.EmitParse
import Verif.Json.EmitBody
import Verif.Json.EmitProps
import Verif.Build.Props
import Verif.Json.TokProps
import Verif.Schema.Words
import Verif.Schema.Model
import Verif.Schema.Spec
import Verif.Schema.Accept
import Verif.Schema.AcceptObject
import Verif.Schema.Total
import Verif.Schema.Strip
import Verif.Schema.Props
import Verif.Schema.Height
import Verif.Schema.Limits
import Verif.Schema.Structure
import Verif.Schema.TypeName
import Verif.Ext.Pointer
import Verif.Ext.PointerSpec
import Verif.Ext.PointerLemmas
import Verif.Ext.Walk
import Verif.Ext.PointerProps
import Verif.Ext.EditProps
import Verif.Ext.Patch
import Verif.Ext.PatchProps
import Verif.Ext.DiffProps
import Verif.Ext.Update
import Verif.Ext.UpdateProps
import Verif.Ext.Flatten
import Verif.Ext.FlattenProps
import Verif.Ext.FlattenRound
import Verif.Payload.Model
import Verif.Payload.Spec
import Verif.Payload.Align
import Verif.Payload.Read
import Verif.Payload.NoNul
import Verif.Payload.Header
import Verif.Payload.Round
import Verif.Payload.Findings
import Verif.Uri.Model
import Verif.Uri.Spec
import Verif.Uri.Unescape
import Verif.Uri.Dots
import Verif.Uri.DotsRfc
import Verif.Uri.Resolve
import Verif.Args.Register
import Verif.Args.RegProps
import Verif.Guess.Model
import Verif.Guess.Props
import Verif.Args.World
import Verif.Args.Help
import Verif.Args.HelpSpec
import Verif.Args.HelpLayout
import Verif.Args.HelpBuilt
import Verif.Args.HelpProps
import Verif.Args.HelpAsked
import Verif.Args.Getopt
import Verif.Args.GetoptSpec
import Verif.Args.GetoptScan
import Verif.Args.GetoptProps
import Verif.Args.HelpExamples
import Verif.Args.Parse
import Verif.Args.ParseLemmas
import Verif.Args.ParseShape
import Verif.Args.ParseSpec
import Verif.Args.ParseProps
import Verif.Args.ParseOrder
import Verif.Args.ParseExamples
import Verif.Args.Convert
import Verif.Args.Gen
import Verif.Args.GenSpec
import Verif.Args.GenLeaf
import Verif.Args.GenTree
import Verif.Args.GenResult
import Verif.Args.GenAccept
import Verif.Args.GenIff
import Verif.Args.GenWhole
import Verif.Args.GenProps
import Verif.Args.GenSound
import Verif.Args.GenConforms
import Verif.Args.Desc
import Verif.Args.DescEntry
import Verif.Args.DescMerge
import Verif.Args.DescLoop
import Verif.Args.DescGroup
import Verif.Args.DescWhole
import Verif.Args.DescSound
import Verif.Args.DescUnion
import Verif.Args.DescProps
import Verif.Args.DescShow
import Verif.Args.SchemaText
import Verif.Args.SchemaVal
import Verif.Args.Validate
import Verif.Args.ValidateSpec
import Verif.Args.ValidateRuns
import Verif.Args.ValidateWhole
import Verif.Args.ValidateTidy
import Verif.Args.ValidateEntry
import Verif.Args.ValidateProps
import Verif.Loader.Model
import Verif.Loader.Spec
import Verif.Loader.Props
import Verif.Loader.Lookup
import Verif.Loader.Examples
import Verif.Loader.More
import Verif.Defaults.Model
import Verif.Defaults.Spec
import Verif.Defaults.Steps
import Verif.Defaults.Paths
import Verif.Defaults.Refs
import Verif.Defaults.Phases
import Verif.Defaults.Complete
import Verif.Defaults.Ends
import Verif.Defaults.Props
import Verif.Defaults.Examples
import Verif.Bundle.Model
import Verif.Bundle.Spec
import Verif.Bundle.Read
import Verif.Bundle.Scan
import Verif.Bundle.Run
import Verif.Bundle.Doc
import Verif.Bundle.Emit
import Verif.Bundle.Round
import Verif.Bundle.Props
import Verif.Bundle.Examples
import Verif.Xml.Model
import Verif.Xml.Spec
import Verif.Xml.Read
import Verif.Xml.Doc
import Verif.Xml.Safe
import Verif.Xml.Emit
import Verif.Xml.Round
import Verif.Xml.Props
import Verif.Xml.Examples
import Verif.Yaml.Model
import Verif.Yaml.Spec
import Verif.Yaml.Read
import Verif.Yaml.Eval
import Verif.Yaml.ReadProps
import Verif.LoadAll.Model
import Verif.LoadAll.Spec
import Verif.LoadAll.Props
import Verif.Yaml.Docs
import Verif.Json.Docs
import Verif.Yaml.WSpec
import Verif.Yaml.Emit
import Verif.Yaml.Write
import Verif.Yaml.Round
import Verif.Yaml.RoundProps
import Verif.Conv.Model
import Verif.Conv.Props
import Verif.Conv.Round
import Verif.Conv.Params
import Verif.Conv.ParamProps
import Verif.Ref.Model
import Verif.Ref.Spec
import Verif.Ref.Inv
import Verif.Ref.Prim
import Verif.Ref.Frame
import Verif.Ref.Resolve
import Verif.Ref.Write
import Verif.Ref.Create
import Verif.Ref.Assign
import Verif.Ref.Ops
import Verif.Ref.Deep
import Verif.Ref.Step
import Verif.Ref.SafetyProps
import Verif.Ref.RefersProps
import Verif.Ref.EffectProps
import Verif.Ref.MakeProps
import Verif.Ref.StorageProps
import Verif.Ref.TreeSpec
import Verif.Ref.Tree
import Verif.Ref.Change
import Verif.Ref.Container
import Verif.Ref.TreeOps
import Verif.Ref.TreeProps
import Verif.Ref.CopyProps
import Verif.Schema.MetaText
import Verif.Schema.Meta
import Verif.Schema.MetaParsed
import Verif.Schema.MetaSpec
import Verif.Schema.Calm
import Verif.Schema.MetaRuns
import Verif.Schema.MetaAccept
import Verif.Schema.Whole
import Verif.Schema.MetaLoad
import Verif.Schema.MetaNormed
import Verif.Schema.MetaProps
import Verif.Schema.MetaExamples
import Verif.Blob.Life
import Verif.Blob.LifeInv
import Verif.Blob.LifeProps
import Verif.Blob.LifeView
import Verif.Args.GroupDefault
import Verif.Args.BuiltReached
import Verif.Tool.Varsh
import Verif.Tool.VarshProps
import Verif.Tool.Run
import Verif.Tool.RunSpec
import Verif.Tool.RunProps
import Verif.Tool.RunMore
import Verif.Tool.RunLine
import Verif.Event.Tight
import Verif.Texts
import Verif.Schema.Report
import Verif.Schema.ReportAgrees
import Verif.Schema.ReportSpec
import Verif.Schema.ReportProps
import Verif.Schema.Places
import Verif.Xml.CharProps
import Verif.Heap.Level
import Verif.Schema.Print
import Verif.Schema.PrintProps
import Verif.Event.Random
import Verif.Event.RandomProps
import Verif.Sink.Model
import Verif.Sink.Props
import Verif.Dispatch.Model
import Verif.Dispatch.Props
import Verif.Num.Model
import Verif.Num.Round
import Verif.Num.Props
import Verif.Reset.Model
import Verif.Reset.Lemmas
import Verif.Reset.Xml
import Verif.Reset.XmlLeft
import Verif.Reset.Props
import Verif.IO.Adapter
import Verif.IO.AdapterProps
import Verif.Args.Name
import Verif.Args.NameProps
import Verif.Payload.Bundle
import Verif.Payload.BundleRead
import Verif.Payload.BundleWrite
import Verif.Payload.BundleRound
import Verif.Payload.BundleProps
import Verif.Val.Errors
import Verif.Dec.Model
import Verif.Dec.Nearest
import Verif.Dec.Text
import Verif.Dec.Props
import Verif.Val.Message
import Verif.Sink.Payload
import Verif.Dec.AsText
import Verif.Dec.AsTextProps
import Verif.Dec.Bundle
import Verif.Event.Print
import Verif.Args.OptName
import Verif.Ext.FlattenText
import Verif.Conv.Into
import Verif.Conv.Complex
import Verif.Defaults.Items
