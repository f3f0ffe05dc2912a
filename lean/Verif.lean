import Verif.Props.TextLine
import Verif.Props.Reader
import Verif.Props.Header
import Verif.Props.Glob
import Verif.Props.Text
import Verif.Props.Parts
import Verif.Props.Binsearch
import Verif.Props.Column
import Verif.Props.ColumnOut
import Verif.Props.Comp
import Verif.Props.CompNum
import Verif.Props.CompCache
import Verif.Props.Merge
import Verif.Props.Sort
import Verif.Props.Join
import Verif.Props.Sampler
import Verif.Props.Transpose
import Verif.Props.Tabs
import Verif.Props.Expr
import Verif.Props.Ops
import Verif.Props.Regex
import Verif.Props.Match
import Verif.Props.Methods
import Verif.Props.MatchSpec
import Verif.Props.Cgrep
import Verif.Props.Trans
import Verif.Props.Agg
import Verif.Props.AggMerge
import Verif.Props.AggMake
import Verif.Props.Uniq
import Verif.Props.Cat
import Verif.Props.CatSlow
import Verif.Props.Verify
import Verif.Props.Paste
import Verif.Props.Sample
import Verif.Props.Num
import Verif.Props.Wc
import Verif.Props.Files
import Verif.Props.TextNum
import Verif.Props.Insens
import Verif.Props.Registry
import Verif.Props.CompMake
import Verif.Props.Filegen
import Verif.Model.UniqAgg
import Verif.Props.UniqAgg
import Verif.Model.Settings
import Verif.Spec.Settings
import Verif.Props.Settings
import Verif.Props.Options
import Verif.Model.BinMain
import Verif.Props.BinMain
import Verif.Model.Cut
import Verif.Props.Cut
import Verif.Props.CutTable
import Verif.Props.CutTrans
import Verif.Props.CutMore
import Verif.Model.SortAlt
import Verif.Model.SortFormula
import Verif.Props.SortAlt
import Verif.Props.SortMain
import Verif.Props.SortTable
import Verif.Model.ExprLine
import Verif.Spec.ExprLine
import Verif.Lemmas.ExprLine
import Verif.Props.ExprLine
import Verif.Props.ExprBracket
import Verif.Props.ExprUse
import Verif.Model.GrepMain
import Verif.Props.GrepMain
import Verif.Model.TabsMain
import Verif.Props.TabsMain
import Verif.Model.S3
import Verif.Props.S3
import Verif.Model.ToolTest
import Verif.Props.ToolTest
import Verif.Props.ToolRun
import Verif.Props.Threads
import Verif.Props.Locks
import Verif.Props.SelfComp
import Verif.Props.Verbose
import Verif.Spec.Utf8
import Verif.Model.Utf8
import Verif.Lemmas.Utf8
import Verif.Props.Utf8
import Verif.Props.StrCuts
import Verif.Props.OpsMake
import Verif.Model.Float
import Verif.Spec.Float
import Verif.Lemmas.Float
import Verif.Lemmas.FloatInt
import Verif.Lemmas.FloatRead
import Verif.Lemmas.FloatNear
import Verif.Props.Float
import Verif.Props.FloatNear
import Verif.Props.FloatSampler
import Verif.Props.FloatThresh
import Verif.Spec.Words
import Verif.Spec.Malformed
import Verif.Spec.NamePattern
import Verif.Model.Thresh
import Verif.Props.Words
import Verif.Props.Thresh
import Verif.Props.Malformed
import Verif.Props.Details
import Verif.Props.NamePattern
import Verif.Props.Exact
import Verif.Props.MethodWords
import Verif.Props.FloatBack
import Verif.Props.UniqMain
import Verif.Props.VerifyMain
import Verif.Props.CatMain
import Verif.Props.WcMain
import Verif.Props.SampleMain
import Verif.Props.PasteMain
import Verif.Props.JoinMain
import Verif.Props.Pipes
import Verif.Props.PipesUniq
import Verif.Props.PipesVerify
import Verif.Props.PipesCut
import Verif.Props.PipesMerge
import Verif.Props.PipesBin
import Verif.Props.PipesGrep
import Verif.Props.PipesSort
import Verif.Props.PipesCols
import Verif.Props.PipesRun
import Verif.Props.PipesFiles
import Verif.Props.RunCmds
import Verif.Props.Program
import Verif.Props.Tighten
import Verif.Props.Tighten2
import Verif.Model.Linked
import Verif.Props.Linked
import Verif.Props.LinkedGrep
import Verif.Props.SortNums
import Verif.Props.CompRows
import Verif.Props.OtherNames
import Verif.Props.UniqNums
import Verif.Props.UniqSums
import Verif.Props.UniqFolds
import Verif.Props.Remake
import Verif.Props.Totals
import Verif.Props.SampleFull
import Verif.Props.GrepCount
import Verif.Props.SortAgree
import Verif.Props.SumError
import Verif.Props.MeanError
import Verif.Props.TwiceNums
import Verif.Props.MissingFiles
import Verif.Props.SortFloat
import Verif.Props.DecAgree
import Verif.Props.Refused
import Verif.Props.DecTwice
import Verif.Props.DecKeys
import Verif.Props.DecKeysAgree
import Verif.Props.DecPipes
import Verif.Props.CatSort
import Verif.Props.GrepDec
