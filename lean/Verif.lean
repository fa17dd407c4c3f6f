import Verif.Lemmas.AddsEdges
import Verif.Lemmas.Anaphoricity
import Verif.Lemmas.AnaphoricityRead
import Verif.Lemmas.Bfs
import Verif.Lemmas.BracketText
import Verif.Lemmas.Brackets
import Verif.Lemmas.Brat
import Verif.Lemmas.Chains
import Verif.Lemmas.Conano
import Verif.Lemmas.ConanoTree
import Verif.Lemmas.ConanoWords
import Verif.Lemmas.CondCalls
import Verif.Lemmas.Conll
import Verif.Lemmas.ConllFeats
import Verif.Lemmas.ConllGraph
import Verif.Lemmas.ConllScript
import Verif.Lemmas.ConllText
import Verif.Lemmas.Continuous
import Verif.Lemmas.CopyGraph
import Verif.Lemmas.CopyView
import Verif.Lemmas.Coref
import Verif.Lemmas.Corpora
import Verif.Lemmas.CorpusIter
import Verif.Lemmas.Dag
import Verif.Lemmas.Decour
import Verif.Lemmas.DecourRead
import Verif.Lemmas.Dict
import Verif.Lemmas.Dis
import Verif.Lemmas.DisGraph
import Verif.Lemmas.DisPrint
import Verif.Lemmas.DisRead
import Verif.Lemmas.DisRestore
import Verif.Lemmas.DisSub
import Verif.Lemmas.DisText
import Verif.Lemmas.DisTokens
import Verif.Lemmas.Edges
import Verif.Lemmas.Exmaralda
import Verif.Lemmas.ExmaraldaRead
import Verif.Lemmas.ExmaraldaWrite
import Verif.Lemmas.ExportContent
import Verif.Lemmas.ExportRead
import Verif.Lemmas.ExportRows
import Verif.Lemmas.ExportTimes
import Verif.Lemmas.ExportWhole
import Verif.Lemmas.ExportXml
import Verif.Lemmas.Forall2
import Verif.Lemmas.GetOffsets
import Verif.Lemmas.Graph
import Verif.Lemmas.GraphEdges
import Verif.Lemmas.GraphInv
import Verif.Lemmas.GraphOps
import Verif.Lemmas.GraphStep
import Verif.Lemmas.IntLabels
import Verif.Lemmas.Keeps
import Verif.Lemmas.MergeAll
import Verif.Lemmas.MergeKeeps
import Verif.Lemmas.MergeReach
import Verif.Lemmas.MergeRenamed
import Verif.Lemmas.MergeSpec
import Verif.Lemmas.Mmax
import Verif.Lemmas.MmaxContent
import Verif.Lemmas.MmaxFacts
import Verif.Lemmas.MmaxInv
import Verif.Lemmas.MmaxRead
import Verif.Lemmas.MmaxWhole
import Verif.Lemmas.NoStop
import Verif.Lemmas.NodesLayered
import Verif.Lemmas.Offsets
import Verif.Lemmas.PTreeDec
import Verif.Lemmas.Paula
import Verif.Lemmas.PaulaFiles
import Verif.Lemmas.PaulaWhole
import Verif.Lemmas.Phrases
import Verif.Lemmas.Ptb
import Verif.Lemmas.PtbRead
import Verif.Lemmas.Rank
import Verif.Lemmas.ReadLayer
import Verif.Lemmas.Relabel
import Verif.Lemmas.RelabelLoop
import Verif.Lemmas.Rose
import Verif.Lemmas.Rs3
import Verif.Lemmas.Rs3Dt
import Verif.Lemmas.Rs3Pos
import Verif.Lemmas.Rs3Rep
import Verif.Lemmas.Rs3Tree
import Verif.Lemmas.Rs3Write
import Verif.Lemmas.Rst
import Verif.Lemmas.RstDecl
import Verif.Lemmas.RstEvents
import Verif.Lemmas.RstLatex
import Verif.Lemmas.RstLatexTree
import Verif.Lemmas.RstLatexUnique
import Verif.Lemmas.RstRead
import Verif.Lemmas.RstRel
import Verif.Lemmas.RstStep
import Verif.Lemmas.RstTokens
import Verif.Lemmas.RstView
import Verif.Lemmas.Salt
import Verif.Lemmas.SaltDoc
import Verif.Lemmas.SaltGraph
import Verif.Lemmas.SaltLing
import Verif.Lemmas.SaltWrite
import Verif.Lemmas.Script
import Verif.Lemmas.ScriptTree
import Verif.Lemmas.SetAttr
import Verif.Lemmas.Span
import Verif.Lemmas.SpanSpec
import Verif.Lemmas.SpanText
import Verif.Lemmas.SpanTree
import Verif.Lemmas.Text
import Verif.Lemmas.Tiger
import Verif.Lemmas.TigerDoc
import Verif.Lemmas.TigerFile
import Verif.Lemmas.TigerRepair
import Verif.Lemmas.TigerSent
import Verif.Lemmas.TreePos
import Verif.Lemmas.Unfold
import Verif.Lemmas.Upto
import Verif.Lemmas.Urml
import Verif.Lemmas.UrmlRead
import Verif.Lemmas.View
import Verif.Lemmas.WordWrap
import Verif.Lemmas.Words
import Verif.Model.Anaphoricity
import Verif.Model.Chains
import Verif.Model.CliFiles
import Verif.Model.Conano
import Verif.Model.Conll
import Verif.Model.ConllRead
import Verif.Model.Coref
import Verif.Model.Corpora
import Verif.Model.CorpusIter
import Verif.Model.Decour
import Verif.Model.Dis
import Verif.Model.DisGraph
import Verif.Model.DisText
import Verif.Model.Dot
import Verif.Model.Exmaralda
import Verif.Model.ExportXml
import Verif.Model.FindFiles
import Verif.Model.Generic
import Verif.Model.Graph
import Verif.Model.Heap
import Verif.Model.Hs2015
import Verif.Model.IntLabels
import Verif.Model.Labels
import Verif.Model.Merge
import Verif.Model.MergingCli
import Verif.Model.Mmax
import Verif.Model.MmaxFiles
import Verif.Model.Offsets
import Verif.Model.ParserText
import Verif.Model.Paula
import Verif.Model.Phrases
import Verif.Model.Ptb
import Verif.Model.Py
import Verif.Model.Rs3
import Verif.Model.Rs3Write
import Verif.Model.Rst
import Verif.Model.RstGraph
import Verif.Model.RstLatex
import Verif.Model.Salt
import Verif.Model.Select
import Verif.Model.SpanText
import Verif.Model.Spanstring
import Verif.Model.Statistics
import Verif.Model.Text
import Verif.Model.Tiger
import Verif.Model.Tree
import Verif.Model.Urml
import Verif.Model.Util
import Verif.Model.WordWrap
import Verif.Props.C01
import Verif.Props.C02
import Verif.Props.C03
import Verif.Props.C04
import Verif.Props.C06
import Verif.Props.C07
import Verif.Props.C07Heap
import Verif.Props.C08
import Verif.Props.C11
import Verif.Props.C13
import Verif.Props.C14
import Verif.Props.C15
import Verif.Props.C16
import Verif.Props.C18
import Verif.Props.C20
import Verif.Props.C21
import Verif.Props.C22
import Verif.Props.C23
import Verif.Props.C24
import Verif.Props.C25
import Verif.Props.C26
import Verif.Props.C27
import Verif.Props.C28
import Verif.Props.C29
import Verif.Props.C30
import Verif.Props.C31
import Verif.Props.C32
import Verif.Props.C33
import Verif.Props.C34
import Verif.Props.C35
import Verif.Props.C36
import Verif.Props.C37
import Verif.Props.C38
import Verif.Props.C39
import Verif.Props.C40
import Verif.Props.C41
import Verif.Props.C42
import Verif.Props.C43
import Verif.Props.C44
import Verif.Props.C45
import Verif.Props.C46
import Verif.Props.C47
import Verif.Props.C48
import Verif.Props.C49
import Verif.Props.C50
import Verif.Props.C51
import Verif.Props.C52
import Verif.Props.C53
import Verif.Props.C54
import Verif.Props.C55
import Verif.Props.C56
import Verif.Props.C57
import Verif.Props.C58
import Verif.Props.C59
import Verif.Props.C59Tree
import Verif.Props.C60
import Verif.Props.C60Tree
import Verif.Props.C61
import Verif.Props.C62
import Verif.Props.C63
import Verif.Props.C64
import Verif.Props.C65
import Verif.Props.C66
import Verif.Props.C67
import Verif.Props.C68
import Verif.Props.C69
import Verif.Props.C70
import Verif.Props.C71
import Verif.Props.C72
import Verif.Props.C73
import Verif.Props.C74
import Verif.Props.C75
import Verif.Props.C76
import Verif.Props.C77
import Verif.Props.C78
import Verif.Props.C79
import Verif.Props.C80
import Verif.Props.C81
import Verif.Props.C82
import Verif.Spec.Anaphoricity
import Verif.Spec.BracketText
import Verif.Spec.Chains
import Verif.Spec.CliFiles
import Verif.Spec.Conano
import Verif.Spec.Conll
import Verif.Spec.ConllRead
import Verif.Spec.Coref
import Verif.Spec.Corpora
import Verif.Spec.CorpusIter
import Verif.Spec.Dag
import Verif.Spec.Decour
import Verif.Spec.Dis
import Verif.Spec.DisGraph
import Verif.Spec.DisText
import Verif.Spec.Edges
import Verif.Spec.Exmaralda
import Verif.Spec.ExportXml
import Verif.Spec.FindFiles
import Verif.Spec.Freqt
import Verif.Spec.GraphView
import Verif.Spec.IntLabels
import Verif.Spec.Layered
import Verif.Spec.Layers
import Verif.Spec.Merge
import Verif.Spec.MergingCli
import Verif.Spec.Mmax
import Verif.Spec.MmaxFiles
import Verif.Spec.Offsets
import Verif.Spec.ParserText
import Verif.Spec.Paula
import Verif.Spec.Ptb
import Verif.Spec.ReadLayers
import Verif.Spec.Rename
import Verif.Spec.Rs3
import Verif.Spec.Rst
import Verif.Spec.RstGraph
import Verif.Spec.RstLatex
import Verif.Spec.RstParsers
import Verif.Spec.RstRel
import Verif.Spec.Salt
import Verif.Spec.SaltDoc
import Verif.Spec.Script
import Verif.Spec.SpanText
import Verif.Spec.Tiger
import Verif.Spec.Tree
import Verif.Spec.Urml
import Verif.Spec.WordWrap
import Verif.Spec.Words
