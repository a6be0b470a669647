import Verif.Rbe.PropsDeriv
import Verif.Rbe.SpecAccepted
import Verif.Rbe.LemmasAccepted
import Verif.Rbe.PropsInterval
import Verif.Rbe.PropsOpen
import Verif.Rbe.PropsFeas
import Verif.Rbe.PropsTable
import Verif.Rbe.ModelPending
import Verif.Rbe.SpecPending
import Verif.Rbe.LemmasPending
import Verif.Rbe.PropsPending
import Verif.Rbe.PropsDiag
import Verif.Part.PropsK
import Verif.Part.PropsPerm
import Verif.Part.PropsClass
import Verif.Shex.PropsEngine
import Verif.Shex.PropsShape
import Verif.Shex.PropsDeps
import Verif.Shex.PropsExtends
import Verif.Shex.PropsAlts
import Verif.Prefix.Props
import Verif.Lit.PropsNum
import Verif.Lit.PropsLex
import Verif.Lit.PropsOrder
import Verif.Value.Props
import Verif.Shapemap.Props
import Verif.Shacl.PathProps
import Verif.Shacl.EngineProps
import Verif.Shacl.EngineProps2
import Verif.Shacl.DgProps
import Verif.Shacl.DgProps2
import Verif.Shacl.EngineProps3
import Verif.Shacl.TargetProps
import Verif.Shacl.PrimProps
import Verif.Shacl.PairProps
import Verif.Shacl.ReportProps
import Verif.Pg.Types
import Verif.Pg.Graph
import Verif.Pg.Spec
import Verif.Pg.Lemmas
import Verif.Pg.RecordProps
import Verif.Pg.BaseLemmas
import Verif.Pg.NodeLemmas
import Verif.Pg.NodeProps
import Verif.Pg.MergeProps
import Verif.Pg.MergeNames
import Verif.Pg.Build
import Verif.Pg.BuildSpec
import Verif.Pg.BuildLemmas
import Verif.Pg.BuildProps
import Verif.Pg.GraphText
import Verif.Pg.GraphTextProps
import Verif.Tap.Model
import Verif.Tap.Range
import Verif.Tap.Spec
import Verif.Tap.Lemmas
import Verif.Tap.LemmasRead
import Verif.Tap.LemmasCells
import Verif.Tap.Props
import Verif.Tap.ModelShex
import Verif.Tap.SpecShex
import Verif.Tap.LemmasShex
import Verif.Tap.PropsShex
import Verif.Comp.Model
import Verif.Comp.Spec
import Verif.Comp.LemmasState
import Verif.Comp.LemmasCompile
import Verif.Comp.LemmasDecls
import Verif.Comp.LemmasImports
import Verif.Comp.LemmasMeaning
import Verif.Comp.LemmasTyping
import Verif.Comp.LemmasTotal
import Verif.Comp.LemmasSuccess
import Verif.Comp.LemmasEnds
import Verif.Comp.LemmasStrat
import Verif.Comp.Props
import Verif.Comp.PropsExamples
import Verif.Shexc.Ast
import Verif.Shexc.Chars
import Verif.Shexc.Grammar
import Verif.Shexc.Total
import Verif.Shexc.Schema
import Verif.Shexc.PropsTotal
import Verif.Shexc.Names
import Verif.Shexc.PropsNames
import Verif.Shexc.PropsText
import Verif.Shexc.PropsGram
import Verif.Shexc.PropsPrint
import Verif.Shexc.ShapeMap
import Verif.Shexc.PropsMap
import Verif.Shexc.PropsMapPrint
import Verif.Shexc.PropsMapNodes
import Verif.Conv.Model
import Verif.Conv.Props
import Verif.Mat.Model
import Verif.Mat.Props
import Verif.Cmp.Model
import Verif.Cmp.Props
import Verif.Rd.Model
import Verif.Rd.Props
import Verif.Rd.ModelShape
import Verif.Rd.PropsShape
import Verif.Rd.PropsWrite
import Verif.Store.Props
import Verif.Store.PropsData
import Verif.Act.Props
import Verif.Act.PropsExternal
import Verif.Shacl.SparqlProps
import Verif.Shacl.SparqlModes
import Verif.Shacl.SparqlText
import Verif.Shacl.SparqlTextSpec
import Verif.Shacl.SparqlTextLemmas
import Verif.Shacl.SparqlTextProps
import Verif.Gen.Topo
import Verif.Gen.TopoProps
import Verif.Gen.Model
import Verif.Gen.Lemmas
import Verif.Gen.Props
import Verif.Gen.Conf
import Verif.Store.PropsAgain
import Verif.Gen.Unified
import Verif.Gen.UnifiedProps
import Verif.Gen.MetricsProps
import Verif.Act.PropsExternalAgain
import Verif.Conv.PropsAgain
import Verif.Gen.FieldsProps
import Verif.Gen.PatternProps
import Verif.Shexj.Props
import Verif.Select.Props
import Verif.Uml.Props
import Verif.Cache.Props
import Verif.Inspect.Props
import Verif.Visual.Props
import Verif.Sd.Props
import Verif.Answers.Props
import Verif.Html.Props
import Verif.Load.Props
import Verif.Load.PropsText
import Verif.Gen.OutputProps
import Verif.Regex.Props
import Verif.Shexr.Props
import Verif.Qlever.CommandProps
import Verif.Qlever.StoreProps
import Verif.Qlever.ConvertProps
import Verif.Qlever.ServeProps
import Verif.Qlever.OneShotProps
import Verif.Qlever.ProbeProps
import Verif.Qlever.SizeProps
import Verif.Qlever.WaitProps
import Verif.Qlever.ReaderProps
import Verif.Mcp.OriginProps
import Verif.Mcp.LoggingProps
import Verif.Mcp.StateProps
import Verif.Mcp.PagesProps
import Verif.Mcp.LoadingProps
import Verif.Mcp.AskingProps
import Verif.Mcp.MappingProps
import Verif.Mcp.ArcsProps
