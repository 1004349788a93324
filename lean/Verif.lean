import Verif.Props.LineCol
import Verif.Model.LineCol
import Verif.Props.Pickle
import Verif.Props.Eq
import Verif.Props.Json
import Verif.Props.QueryAxis
import Verif.Spec.Json
import Verif.Model.Pickle
import Verif.Model.Eq
import Verif.Model.Json
import Verif.Model.Span
import Verif.Spec.PyStr
import Verif.Model.Flat
import Verif.Lemmas.Slice
import Verif.Lemmas.Find
import Verif.Lemmas.Affix
import Verif.Props.Index
import Verif.Lemmas.Strip
import Verif.Lemmas.Split
import Verif.Props.StrOps
import Verif.Model.WsSplit
import Verif.Lemmas.WsSplit
import Verif.Props.WsSplit
import Verif.Model.Gaps
import Verif.Model.Tree
import Verif.Model.Match
import Verif.Lemmas.Kids
import Verif.Props.Match
import Verif.Props.Tree
import Verif.Lemmas.Tree
import Verif.Props.Gaps
import Verif.Lemmas.Bisect
import Verif.Props.Heap
import Verif.Model.Hier
import Verif.Props.Hier
import Verif.Props.HierHeap
import Verif.Props.HierObjects
import Verif.Props.HierAtomic
import Verif.Props.Adopt
import Verif.Props.Axis
import Verif.Model.Util
import Verif.Spec.Util
import Verif.Props.Util
import Verif.Model.QueryText
import Verif.Spec.QueryText
import Verif.Props.QueryText
import Verif.Model.Ecf
import Verif.Model.Query
import Verif.Spec.QueryParse
import Verif.Lemmas.Query
import Verif.Props.Query
import Verif.Props.QueryIndex
import Verif.Props.QueryCompose
import Verif.Props.QueryValue
import Verif.Props.QueryErrors
import Verif.Props.QueryDedup
import Verif.Spec.Ecf
import Verif.Lemmas.Ecf
import Verif.Props.Ecf
import Verif.Model.Format
import Verif.Spec.Format
import Verif.Lemmas.Format
import Verif.Props.Format
import Verif.Props.Arbor
import Verif.Props.Box
import Verif.Props.Highlight
import Verif.Props.Ontology
import Verif.Spec.Xml
import Verif.Props.Xml
import Verif.Props.XmlTree
import Verif.Model.Pepo
import Verif.Spec.Pepo
import Verif.Props.Pepo
import Verif.Props.PepoJson
import Verif.Props.PepoXml
import Verif.Model.CloneHeap
import Verif.Model.Pipeline
import Verif.Spec.Pipeline
import Verif.Props.CloneHeap
import Verif.Props.Pipeline
import Verif.Spec.QuerySub
import Verif.Props.QueryFilters
import Verif.Props.QuerySub
import Verif.Model.MatchHeap
import Verif.Model.SplitHeap
import Verif.Spec.Made
import Verif.Spec.Split
import Verif.Props.MatchHeap
import Verif.Props.SplitHeap
import Verif.Props.Flow
import Verif.Model.Nlp
import Verif.Spec.Nlp
import Verif.Props.Nlp
import Verif.Model.Sgr
import Verif.Spec.Sgr
import Verif.Props.Sgr
import Verif.Model.NlpNumber
import Verif.Props.NlpNumber
import Verif.Model.Invoke
import Verif.Props.Invoke
import Verif.Model.Regex
import Verif.Spec.Regex
import Verif.Lemmas.Regex
import Verif.Model.Version
import Verif.Spec.Version
import Verif.Props.Version
import Verif.Props.MatchExact
import Verif.Model.XmlTag
import Verif.Lemmas.RegexRun
import Verif.Lemmas.Tiles
import Verif.Spec.XmlTag
import Verif.Props.XmlTag
import Verif.Props.XmlWritten
import Verif.Props.XmlAttrs
import Verif.Props.XmlKids
import Verif.Props.XmlText
import Verif.Spec.XmlDoc
import Verif.Props.XmlDoc
import Verif.Model.XmlHelper
import Verif.Spec.XmlHelper
import Verif.Props.XmlHelper
import Verif.Props.XmlNames
import Verif.Props.XmlNs
import Verif.Props.XmlScope
import Verif.Props.XmlHelperEx
import Verif.Props.RegexForest
import Verif.Model.NumberRe
import Verif.Spec.Number
import Verif.Props.NumberRe
import Verif.Lemmas.Finditer
import Verif.Props.NumberFind
import Verif.Model.NlpRe
import Verif.Spec.NlpText
import Verif.Props.NlpPatterns
import Verif.Props.NlpCover
import Verif.Props.NlpWords
import Verif.Lemmas.RegexSem
import Verif.Props.NlpSentence
import Verif.Props.NlpChars
import Verif.Model.Table
import Verif.Spec.Table
import Verif.Lemmas.TableRe
import Verif.Props.Table
import Verif.Props.TableMore
import Verif.Props.TableBlock
import Verif.Props.TableItor
import Verif.Props.TableFound
import Verif.Props.TableDemo
import Verif.Model.TypeMagic
import Verif.Spec.TypeMagic
import Verif.Props.TypeMagic
import Verif.Model.VersionParse
import Verif.Props.VersionParse
import Verif.Props.VersionTree
import Verif.Props.VersionLoose
import Verif.Model.Paragraph
import Verif.Spec.Paragraph
import Verif.Props.Paragraph
import Verif.Props.StrExact
import Verif.Props.WsExact
import Verif.Props.HierHistory
import Verif.Props.AxisExact
import Verif.Props.BoxExact
import Verif.Props.GapsExact
import Verif.Props.InvertExact
import Verif.Props.LineColExact
import Verif.Props.EcfExact
import Verif.Props.SetExact
import Verif.Props.Step
import Verif.Props.FullHistory
import Verif.Props.Shunting
import Verif.Props.JsonWide
import Verif.Props.ItoRegex
import Verif.Props.Lazy
import Verif.Props.LazyRev
import Verif.Model.Copy
import Verif.Props.Copy
import Verif.Model.ValueFunc
import Verif.Spec.ValueFunc
import Verif.Props.ValueFunc
import Verif.Model.BoxTable
import Verif.Model.BoxMake
import Verif.Spec.BoxMake
import Verif.Lemmas.BoxTable
import Verif.Props.BoxTable
import Verif.Props.BoxSides
import Verif.Props.BoxCorners
import Verif.Model.LazyQuery
import Verif.Lemmas.LazyQuery
import Verif.Props.LazyQuery
import Verif.Props.LazyRelabel
import Verif.Model.ReSyntax
import Verif.Model.Patterns
import Verif.Spec.Patterns
import Verif.Lemmas.ReadTexts
import Verif.Lemmas.ReSame
import Verif.Lemmas.ReRead
import Verif.Props.Patterns
import Verif.Props.PatternsNum
import Verif.Props.PatternsSet
import Verif.Props.PatternsTable
import Verif.Spec.QueryExpr
import Verif.Props.QueryExpr
import Verif.Props.QueryExprText
import Verif.Model.PatternsMore
import Verif.Spec.Parsers
import Verif.Lemmas.ReBest
import Verif.Lemmas.ReadMore
import Verif.Props.Parsers
import Verif.Props.ParsersFilter
import Verif.Props.ParsersLines
import Verif.Props.ParsersFormat
import Verif.Props.CloneWith
import Verif.Props.BoxUnknown
import Verif.Model.ExtractObj
import Verif.Spec.ExtractObj
import Verif.Props.ExtractObj
import Verif.Model.ItoratorClone
import Verif.Props.ItoratorClone
import Verif.Spec.Classes
import Verif.Props.Classes
import Verif.Model.OntoQuery
import Verif.Spec.OntoQuery
import Verif.Props.OntoQuery
import Verif.Model.XmlFeed
import Verif.Spec.XmlFeed
import Verif.Props.XmlFeed
import Verif.Model.XmlFind
import Verif.Spec.XmlFind
import Verif.Props.XmlFind
import Verif.Model.Family
import Verif.Props.Family
import Verif.Props.QueryOps
import Verif.Model.Repr
import Verif.Spec.Repr
import Verif.Props.Repr
import Verif.Model.Errors
import Verif.Model.Infix
import Verif.Spec.Errors
import Verif.Props.Errors
import Verif.Props.Infix
import Verif.Model.ParagraphSet
import Verif.Props.ParagraphSet
import Verif.Model.ConMake
import Verif.Props.ConMake
