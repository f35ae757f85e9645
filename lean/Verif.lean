import Verif.Alias.DeclareProps
import Verif.Alias.DgoString
import Verif.Alias.Model
import Verif.Alias.Props
import Verif.Alias.ResolveAll
import Verif.Alias.ResolveBase
import Verif.Alias.ResolveEnds
import Verif.Alias.ResolveInv
import Verif.Alias.ResolveModel
import Verif.Alias.ResolveProps
import Verif.Alias.ResolveRun
import Verif.Alias.ResolveSpec
import Verif.Alias.ResolveStep
import Verif.Args.Lemmas
import Verif.Args.Model
import Verif.Args.Props
import Verif.Arr.EachModel
import Verif.Arr.EachProps
import Verif.Arr.EachSpec
import Verif.Arr.EachSteps
import Verif.Arr.Lemmas
import Verif.Arr.Model
import Verif.Arr.Props
import Verif.Arr.Results
import Verif.Arr.Step
import Verif.Binary.Lemmas
import Verif.Binary.Model
import Verif.Binary.Props
import Verif.Conc.Alias
import Verif.Conc.Basic
import Verif.Conc.Loader
import Verif.Conc.LoaderShare
import Verif.Conc.LoaderVal
import Verif.Conc.LoaderValProps
import Verif.Conc.Named
import Verif.Conc.Namespace
import Verif.Conc.Naming
import Verif.Conc.NamingProps
import Verif.Conc.Props
import Verif.Conc.StrHash
import Verif.Conc.StrHashProps
import Verif.Conc.Tree
import Verif.Core
import Verif.Entry.Lemmas
import Verif.Entry.Model
import Verif.Entry.Props
import Verif.Errs.Model
import Verif.Errs.Props
import Verif.Func.Model
import Verif.Func.Props
import Verif.Goarg.Lemmas
import Verif.Goarg.Model
import Verif.Goarg.Props
import Verif.Goarg.Spec
import Verif.Graph.Copy
import Verif.Graph.Equal
import Verif.Graph.Freeze
import Verif.Graph.Inv
import Verif.Graph.Model
import Verif.Graph.Props
import Verif.Graph.Safe
import Verif.Graph.Sep
import Verif.Graph.SepExec
import Verif.Graph.SepOps
import Verif.Graph.SepProps
import Verif.Graph.SepSpec
import Verif.Graph.Spec
import Verif.Graph.Steps
import Verif.Graph.Thaw
import Verif.HMap.EachLoops
import Verif.HMap.EachModel
import Verif.HMap.EachProps
import Verif.HMap.EachRefine
import Verif.HMap.EachSpec
import Verif.HMap.EachSteps
import Verif.HMap.ListProps
import Verif.HMap.Model
import Verif.HMap.Ops
import Verif.HMap.Ops2
import Verif.HMap.Props
import Verif.HMap.Read
import Verif.HMap.Refine
import Verif.HMap.Rep
import Verif.HMap.Resize
import Verif.HMap.Spec
import Verif.HMap.SpecFacts
import Verif.HMap.TableSize
import Verif.HMap.Write
import Verif.Live.CopyLemmas
import Verif.Live.FreezeProps
import Verif.Live.Lemmas
import Verif.Live.Model
import Verif.Live.Props
import Verif.Live.Spec
import Verif.Native.Lemmas
import Verif.Native.Model
import Verif.Native.Props
import Verif.Native.Spec
import Verif.Pcore.Callable
import Verif.Pcore.CallableProps
import Verif.Pcore.Data
import Verif.Pcore.Good
import Verif.Pcore.Good2
import Verif.Pcore.Good3
import Verif.Pcore.Lexer
import Verif.Pcore.Lexing
import Verif.Pcore.ListProps
import Verif.Pcore.Lists
import Verif.Pcore.NameLemmas
import Verif.Pcore.NameProps
import Verif.Pcore.NameSpec
import Verif.Pcore.Names
import Verif.Pcore.Parser
import Verif.Pcore.Props
import Verif.Pcore.Read
import Verif.Pcore.ReadType
import Verif.Pcore.Spec
import Verif.Pcore.TokenLemmas
import Verif.Pcore.TokenProps
import Verif.Pcore.TokenSpec
import Verif.Pcore.Total
import Verif.Print.Lemmas
import Verif.Print.Model
import Verif.Print.Props
import Verif.Reflect.Alias
import Verif.Reflect.AliasLemmas
import Verif.Reflect.AliasProps
import Verif.Reflect.AliasSpec
import Verif.Reflect.Back
import Verif.Reflect.Call
import Verif.Reflect.CallLemmas
import Verif.Reflect.CallProps
import Verif.Reflect.CallSpec
import Verif.Reflect.FromType
import Verif.Reflect.FromTypeLemmas
import Verif.Reflect.FromTypeProps
import Verif.Reflect.FromTypeSpec
import Verif.Reflect.Model
import Verif.Reflect.OfType
import Verif.Reflect.OfTypeGoes
import Verif.Reflect.OfTypeLemmas
import Verif.Reflect.OfTypeMain
import Verif.Reflect.OfTypeProps
import Verif.Reflect.OfTypeSpec
import Verif.Reflect.Props
import Verif.Reflect.Reads
import Verif.Reflect.Round
import Verif.Reflect.Spec
import Verif.Reflect.Struct
import Verif.Reflect.StructLemmas
import Verif.Reflect.StructProps
import Verif.Reflect.StructSpec
import Verif.Reflect.Total
import Verif.Stream.Able
import Verif.Stream.AbleProps
import Verif.Stream.AbleRich
import Verif.Stream.Bytes
import Verif.Stream.BytesData
import Verif.Stream.BytesGrammar
import Verif.Stream.BytesOnly
import Verif.Stream.BytesProps
import Verif.Stream.BytesRead
import Verif.Stream.BytesSpec
import Verif.Stream.BytesToks
import Verif.Stream.BytesWrite
import Verif.Stream.Ends
import Verif.Stream.Fuel
import Verif.Stream.Graph
import Verif.Stream.Json
import Verif.Stream.JsonLemmas
import Verif.Stream.JsonProps
import Verif.Stream.JsonRead
import Verif.Stream.Lemmas
import Verif.Stream.Main
import Verif.Stream.Model
import Verif.Stream.Named
import Verif.Stream.NamedProps
import Verif.Stream.NamedSpec
import Verif.Stream.Once
import Verif.Stream.Props
import Verif.Stream.Sim
import Verif.Stream.Spec
import Verif.Stream.Walk
import Verif.Text.AliasDeclared
import Verif.Text.AliasLemmas
import Verif.Text.AliasPrinter
import Verif.Text.AliasProps
import Verif.Text.AliasSpec
import Verif.Text.AliasUses
import Verif.Text.Chains
import Verif.Text.Cursor
import Verif.Text.DocsProps
import Verif.Text.Domain
import Verif.Text.ErrPos
import Verif.Text.FloatLemmas
import Verif.Text.FloatModel
import Verif.Text.FloatProps
import Verif.Text.FloatSpec
import Verif.Text.FloatText
import Verif.Text.Func
import Verif.Text.FuncLemmas
import Verif.Text.FuncProps
import Verif.Text.Layout
import Verif.Text.LayoutProps
import Verif.Text.LexErr
import Verif.Text.LexErrProps
import Verif.Text.LexProps
import Verif.Text.Lexer
import Verif.Text.Literal
import Verif.Text.MeaningProps
import Verif.Text.Means
import Verif.Text.Meta
import Verif.Text.MetaProps
import Verif.Text.Named
import Verif.Text.NamedLemmas
import Verif.Text.NamedOther
import Verif.Text.NamedProps
import Verif.Text.Number
import Verif.Text.ParseProps
import Verif.Text.Parser
import Verif.Text.ParserTotal
import Verif.Text.Printer
import Verif.Text.Props
import Verif.Text.Quote
import Verif.Text.RangeLemmas
import Verif.Text.RangeProps
import Verif.Text.Reader
import Verif.Text.ReadmeProps
import Verif.Text.Relex
import Verif.Text.Reparse
import Verif.Text.Reread
import Verif.Text.RereadTy
import Verif.Text.RoundProps
import Verif.Text.RoundTrip
import Verif.Text.SizeProps
import Verif.Text.TokenLemmas
import Verif.Text.TokenProps
import Verif.Text.TokenSpec
import Verif.Text.Utf8
import Verif.Time.Float
import Verif.Time.Lemmas
import Verif.Time.Model
import Verif.Time.Props
import Verif.Time.TextLemmas
import Verif.Time.TextModel
import Verif.Time.TextProps
import Verif.Time.TextSound
import Verif.Types.Access
import Verif.Types.AccessProps
import Verif.Types.AccessSpec
import Verif.Types.Assign
import Verif.Types.AssignFuel
import Verif.Types.AssignGuard
import Verif.Types.AssignNil
import Verif.Types.AssignProps
import Verif.Types.AssignRange
import Verif.Types.AssignSimple
import Verif.Types.AssignSound
import Verif.Types.Complete
import Verif.Types.CompleteProps
import Verif.Types.CompleteSpec
import Verif.Types.Congr
import Verif.Types.Ctor
import Verif.Types.CtorProps
import Verif.Types.EqSound
import Verif.Types.FromMap
import Verif.Types.FromMapProps
import Verif.Types.Generic
import Verif.Types.GenericLemmas
import Verif.Types.GenericProps
import Verif.Types.GenericSpec
import Verif.Types.Has
import Verif.Types.Hash
import Verif.Types.HashLemmas
import Verif.Types.HashProps
import Verif.Types.Inst
import Verif.Types.InstHas
import Verif.Types.KindProps
import Verif.Types.KindSpec
import Verif.Types.Model
import Verif.Types.Named
import Verif.Types.NamedProps
import Verif.Types.NamedSpec
import Verif.Types.New
import Verif.Types.NewConv
import Verif.Types.NewLemmas
import Verif.Types.NewProps
import Verif.Types.NewSpec
import Verif.Types.NumLemmas
import Verif.Types.NumProps
import Verif.Types.NumSpec
import Verif.Types.Own
import Verif.Types.Props
import Verif.Types.Rec
import Verif.Types.RecAsg
import Verif.Types.RecAsgLemmas
import Verif.Types.RecAsgProps
import Verif.Types.RecAsgSound
import Verif.Types.RecAsgSpec
import Verif.Types.RecAsgWalk
import Verif.Types.RecEq
import Verif.Types.RecEqEq
import Verif.Types.RecEqHash
import Verif.Types.RecEqLemmas
import Verif.Types.RecEqOps
import Verif.Types.RecEqOpsProps
import Verif.Types.RecEqProps
import Verif.Types.RecEqSpec
import Verif.Types.RecLemmas
import Verif.Types.RecProps
import Verif.Types.RecSpec
import Verif.Types.RecWalk
import Verif.Types.Shape
import Verif.Types.SoundCases
import Verif.Types.SoundLoops
import Verif.Types.Struct
import Verif.Types.StructLemmas
import Verif.Types.ValueType
import Verif.Types.ValueTypeProps
import Verif.Value.Cmp
import Verif.Value.Eq
import Verif.Value.ListLemmas
import Verif.Value.Lists
import Verif.Value.Model
import Verif.Value.Props
import Verif.Value.SortProps
